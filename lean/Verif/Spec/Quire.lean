import Mathlib.LinearAlgebra.Matrix.NonsingularInverse
import Mathlib.Data.Real.Basic
/-!
# The evaluation of an example by QUIRE (Huang, Jin, Zhou 2014)
-/
namespace Alipy.Spec

/-- `L_ss - det(L_aa) / L_ss + 2 |(L_sl - L_su L_uu⁻¹ L_ul) y_l|`, where `s = unl i`, `a` are the unlabelled examples, `u` those other than
`s`, and `l` the labelled ones. -/
noncomputable def quireEval {ι : Type} {a b : Nat} (L : Matrix ι ι ℝ) (lab : Fin a → ι) (unl : Fin b → ι) (y : ι → ℝ) (i : Fin b) : ℝ :=
  let s := unl i
  let u : {k : Fin b // k ≠ i} → ι := fun k => unl k
  L s s - (L.submatrix unl unl).det / L s s +
    2 * |(((fun j => L s (lab j)) : Fin a → ℝ) - Matrix.vecMul (Matrix.vecMul (fun k => L s (u k)) (L.submatrix u u)⁻¹) (L.submatrix u lab)) ⬝ᵥ
      (fun j => y (lab j))|

/-- The labelled and the unlabelled examples are all different, and they are all training examples. -/
def SplitOfTrain {ι : Type} {a b : Nat} (lab : Fin a → ι) (unl : Fin b → ι) : Prop := Function.Bijective (Sum.elim lab unl)

end Alipy.Spec

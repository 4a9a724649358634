import Mathlib.Algebra.Field.Basic

/-! Spec for C134: the matrix that marks given cells. -/
namespace Alipy.Spec

open Classical in
/-- One at the cells in `ps`, zero elsewhere. -/
noncomputable def marked {K : Type} [Zero K] [One K] (n d : Nat) (ps : List (Int × Int)) : Fin n → Fin d → K :=
  fun i j => if ((i : Int), (j : Int)) ∈ ps then 1 else 0

end Alipy.Spec

import Mathlib.LinearAlgebra.Matrix.NonsingularInverse
import Mathlib.Data.Real.Basic

/-! # What multi-label QUIRE optimises -/
namespace Alipy.MLQuire.Spec

variable {n C a b : Nat}

/-- The energy of a label matrix: the sum of `Y_lᵀ L Y_l` over the labels `l`. -/
noncomputable def energy (L : Matrix (Fin n) (Fin n) ℝ) (Y : Fin n → Fin C → ℝ) : ℝ := ∑ l, ∑ i, ∑ j, Y i l * L i j * Y j l

/-- `Y` has the known labels `y` at the pairs `S`, the label `s` at the pair `q`, and is zero at the pairs that are neither known nor in the pool `U`. -/
def Completes (S : Fin a → Fin n × Fin C) (U : Fin b → Fin n × Fin C) (y : Fin n → Fin C → ℝ) (q : Fin n × Fin C) (s : ℝ) (Y : Fin n → Fin C → ℝ) : Prop :=
  (∀ j, Y (S j).1 (S j).2 = y (S j).1 (S j).2) ∧ Y q.1 q.2 = s ∧ ∀ e l, (∀ j, S j ≠ (e, l)) → (∀ k, U k ≠ (e, l)) → Y e l = 0

/-- The least energy if the pair `q` has label `s` and the labels of the rest of the pool are free (relaxed to real numbers). -/
def Least (L : Matrix (Fin n) (Fin n) ℝ) (S : Fin a → Fin n × Fin C) (U : Fin b → Fin n × Fin C) (y : Fin n → Fin C → ℝ) (q : Fin n × Fin C) (s m : ℝ) : Prop :=
  IsLeast {e | ∃ Y, Completes S U y q s Y ∧ e = energy L Y} m

/-- `m` is the evaluation of the pair `q`: the worse one of its two labels. -/
def Evaluation (L : Matrix (Fin n) (Fin n) ℝ) (S : Fin a → Fin n × Fin C) (U : Fin b → Fin n × Fin C) (y : Fin n → Fin C → ℝ) (q : Fin n × Fin C) (m : ℝ) : Prop :=
  ∃ p r, Least L S U y q 1 p ∧ Least L S U y q (-1) r ∧ m = max p r

/-- Known pairs and pool: all different. -/
def Apart (S : Fin a → Fin n × Fin C) (U : Fin b → Fin n × Fin C) : Prop := Function.Injective (Sum.elim S U)

end Alipy.MLQuire.Spec

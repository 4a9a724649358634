import Mathlib.Data.Matrix.Mul
import Mathlib.Algebra.Order.Archimedean.Real.Basic
import Mathlib.LinearAlgebra.Matrix.Notation
import Mathlib.LinearAlgebra.Matrix.ConjTranspose

/-! Spec for supervised matrix completion. -/
namespace Alipy.Spec
open Matrix

variable {m n : Type} [Fintype m] [Fintype n]

/-- The inner product of matrices. -/
def frob (A B : Matrix m n ℝ) : ℝ := ∑ i, ∑ j, A i j * B i j

/-- No vector gets longer. -/
def Contraction (W : Matrix m n ℝ) : Prop := ∀ x, (W *ᵥ x) ⬝ᵥ (W *ᵥ x) ≤ x ⬝ᵥ x

/-- The nuclear norm (trace norm), as the dual of the spectral norm. -/
noncomputable def nuclear (Z : Matrix m n ℝ) : ℝ := sSup {t | ∃ W : Matrix m n ℝ, Contraction W ∧ t = frob W Z}

open Classical in
/-- The objective of supervised matrix completion: half the squared error on the observed entries, `lambda2` times the mean squared error of the linear model, and `lambda1` times
the nuclear norm. -/
noncomputable def completionObjective (obs : m → n → Prop) (X : Matrix m n ℝ) (y : m → ℝ) (w : n → ℝ) (b lambda1 lambda2 : ℝ) (Z : Matrix m n ℝ) : ℝ :=
  (∑ i, ∑ j, if obs i j then (Z i j - X i j) ^ 2 else 0) / 2 + lambda2 * ((∑ i, ((∑ j, Z i j * w j) + b - y i) ^ 2) / Fintype.card m) + lambda1 * nuclear Z

/-- What `np.linalg.eig` promises for a diagonalisable real matrix with real eigenvalues: eigenvectors of length one that span the space. They need not be orthogonal. -/
structure IsEig [DecidableEq n] (A : Matrix n n ℝ) (D : n → ℝ) (V : Matrix n n ℝ) : Prop where
  eigen : A * V = V * diagonal D
  unit : ∀ j, ∑ i, V i j * V i j = 1
  span : ∃ V', V * V' = 1

/-- The eigenvectors of an eigenvalue other than 0 are orthogonal: true if every eigenvalue but 0 is simple. -/
def OrthogonalIfEqual (D : n → ℝ) (V : Matrix n n ℝ) : Prop := ∀ i j, i ≠ j → D i = D j → D i ≠ 0 → ∑ k, V k i * V k j = 0

/-- What is assumed of `np.linalg.eig` for the matrices it is called with. -/
def EigOK [DecidableEq n] (m : Type) [Fintype m] (eig : Matrix n n ℝ → (n → ℝ) × Matrix n n ℝ) : Prop :=
  ∀ M : Matrix m n ℝ, IsEig (Mᵀ * M) (eig (Mᵀ * M)).1 (eig (Mᵀ * M)).2 ∧ OrthogonalIfEqual (eig (Mᵀ * M)).1 (eig (Mᵀ * M)).2

/-- The mask of a set of observed entries. -/
def IsMaskOf (mask : Matrix m n ℝ) (obs : m → n → Prop) : Prop := ∀ i j, (obs i j → mask i j = 1) ∧ (¬obs i j → mask i j = 0)

end Alipy.Spec

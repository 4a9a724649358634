import Mathlib.Algebra.BigOperators.Fin
import Mathlib.Algebra.Order.Field.Basic
import Mathlib.Data.Real.Basic

/-! Spec for iterative SVD. -/
namespace Alipy.Spec

section
variable {K : Type} [Field K] {r c : Nat}

/-- A matrix of rank `k` at most: a product of a matrix with `k` columns and one with `k` rows. -/
def RankLE (k : Nat) (B : Fin r → Fin c → K) : Prop := ∃ (U : Fin r → Fin k → K) (V : Fin k → Fin c → K), ∀ i j, B i j = ∑ l, U i l * V l j

/-- The squared distance of two matrices on the entries of `P`. -/
def errOn (P : Fin r → Fin c → Prop) [∀ i j, Decidable (P i j)] (A B : Fin r → Fin c → K) : K := ∑ i, ∑ j, if P i j then (A i j - B i j) ^ 2 else 0

/-- A best approximation of rank `k`. -/
def BestRank [LinearOrder K] (k : Nat) (A B : Fin r → Fin c → K) : Prop :=
  RankLE k B ∧ ∀ C, RankLE k C → errOn (fun _ _ => True) A B ≤ errOn (fun _ _ => True) A C

end

variable {r c : Nat}

/-- The rows of `V` are right singular vectors of `A`: an orthonormal system of eigenvectors of `Aᵀ A`, listed by descending eigenvalues `lam` (the squares of the singular values). -/
structure RightSingular (A : Fin r → Fin c → ℝ) (V : Fin c → Fin c → ℝ) (lam : Fin c → ℝ) : Prop where
  unit : ∀ j l, ∑ x, V j x * V l x = if j = l then 1 else 0
  eigen : ∀ j y, ∑ i, (∑ x, A i x * V j x) * A i y = lam j * V j y
  sorted : Antitone lam

/-- What a truncated singular value decomposition with `k` components gives back: the coordinates `A Vᵀ` for the first `k` right singular vectors, multiplied by these. -/
def IsTruncated (k : Nat) (A B : Fin r → Fin c → ℝ) : Prop :=
  ∃ V lam, RightSingular A V lam ∧ ∀ i y, B i y = ∑ j, if j.val < k then (∑ x, A i x * V j x) * V j y else 0

end Alipy.Spec

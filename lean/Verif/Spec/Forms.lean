import Mathlib.Data.List.Basic

/-! Spec for the forms of handing over pairs. -/
namespace Alipy.Spec

/-- The pair `p` lies in a matrix of `n` rows and `m` columns. -/
def WithinShape (n m : Nat) (p : Int × Int) : Prop := 0 ≤ p.1 ∧ p.1 < n ∧ 0 ≤ p.2 ∧ p.2 < m

/-- The number of a cell when the columns of a matrix of `n` rows are laid one after the other. -/
def columnMajor (n : Nat) (p : Int × Int) : Int := p.1 + p.2 * n

end Alipy.Spec

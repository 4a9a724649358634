import Mathlib.Data.List.Perm.Basic
import Mathlib.Algebra.Order.Field.Basic
/-!
# What a selection is meant to be
-/
namespace Alipy.Spec

/-- `r` is a batch of `b` distinct members of `u` (all of `u` if there are not more). -/
def BatchOf {α : Type} (u : List α) (b : Int) (r : List α) : Prop :=
  r.Nodup ∧ (∀ x ∈ r, x ∈ u) ∧ (r.length : Int) = min b u.length

/-- No member of `u` outside of `r` is better than a member of `r`; `better i j` compares the members by their positions in `u`. -/
def NoneBetter {α : Type} (u r : List α) (better : Nat → Nat → Prop) : Prop :=
  ∀ (i j : Nat) (x y : α), u[i]? = some x → u[j]? = some y → x ∈ r → y ∉ r → ¬ better j i

/-- `t` is the largest entry of a row. -/
def IsTop {K : Type} [LE K] (row : List K) (t : K) : Prop := t ∈ row ∧ ∀ x ∈ row, x ≤ t

/-- `m` is the difference of the two largest entries of a row. -/
def IsMargin {K : Type} [LE K] [Sub K] (row : List K) (m : K) : Prop :=
  ∃ a b rest, row.Perm (a :: b :: rest) ∧ b ≤ a ∧ (∀ x ∈ rest, x ≤ b) ∧ m = a - b

end Alipy.Spec

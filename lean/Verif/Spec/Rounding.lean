import Verif.Model.Rounding
import Mathlib.Algebra.Order.Floor.Ring
/-!
# What is assumed about rounding

For doubles and `B = 2 ^ m`, `Rounds rnd B (2 ^ (m - 54))` holds, integers up to `2 ^ 53` are exact, and rounding is monotone (as long as
nothing overflows).
-/
namespace Alipy.Spec

/-- Numbers of size up to `B` are rounded with an error of at most `e`. -/
def Rounds {K : Type} [Field K] [LinearOrder K] (rnd : K → K) (B e : K) : Prop := ∀ x, |x| ≤ B → |rnd x - x| ≤ e

/-- Integers up to `N` are not changed. -/
def ExactTo {K : Type} [Field K] (rnd : K → K) (N : Nat) : Prop := ∀ n : Nat, n ≤ N → rnd (n : K) = n

/-- All numbers of the list are added, in some order. -/
def AddsAll {K : Type} (tree : List K → Rounding.Tree K) : Prop := ∀ l, l ≠ [] → (tree l).leaves.Perm l

/-- The distance of `x` from every half-integer is greater than `d`. -/
def AwayFromHalves (x d : ℚ) : Prop := ∀ m : Int, d < |x - (m + 1 / 2)|

/-- A rounding of fixed point numbers: to the nearest multiple of `1 / g`. -/
def grid {K : Type} [Field K] [LinearOrder K] [FloorRing K] (g : Nat) (x : K) : K := (⌊x * g + 1 / 2⌋ : K) / g

end Alipy.Spec

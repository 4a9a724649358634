import Verif.Spec.Perfect
/-!
# Better predictions
-/
namespace Alipy.Spec

/-- The scores `t` are at least as good as `s` for the labels `y`: where the label is `pos` they are not lower, elsewhere not higher. -/
def Improves (pos : Int) (y : List Int) (s t : List ℚ) : Prop :=
  t.length = s.length ∧ ∀ (i : Nat) (c : Int) (a b : ℚ), y[i]? = some c → s[i]? = some a → t[i]? = some b → (c = pos → a ≤ b) ∧ (c ≠ pos → b ≤ a)

/-- The same for every sample of a table: relevant labels (1) do not lose, the others do not gain. -/
def ImprovesRows (y : List (List Int)) (s t : List (List ℚ)) : Prop :=
  ∀ i < y.length, Improves 1 (y.getD i []) (s.getD i []) (t.getD i [])

/-- The predictions `b'` are right wherever `b` are. -/
def Corrects {α : Type} (a b b' : List α) : Prop := ∀ i : Nat, a[i]? = b[i]? → a[i]? = b'[i]?

end Alipy.Spec

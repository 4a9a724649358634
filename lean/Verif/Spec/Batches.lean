import Verif.Model.Py
/-!
# Batches of different sizes
-/
namespace Alipy.Spec

/-- Whatever is selected for a batch is also selected for every larger batch of at most `limit`. -/
def Nested {α : Type} (limit : Option Int) (sel : Int → Except PyErr (List α)) : Prop :=
  ∀ k k' r r', k ≤ k' → (∀ n ∈ limit, k' ≤ n) → sel k = .ok r → sel k' = .ok r' → ∀ x ∈ r, x ∈ r'

end Alipy.Spec

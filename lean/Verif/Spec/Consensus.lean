import Mathlib.Data.List.Basic
/-!
# When a committee agrees
-/
namespace Alipy.Spec

/-- All members of a committee say the same. -/
def Unanimous {β : Type} (votes : List β) : Prop := ∀ a ∈ votes, ∀ b ∈ votes, a = b

/-- What the members say about the example at position `i`. -/
def voicesAt {β : Type} (d : β) (predict : List (List β)) (i : Nat) : List β := predict.map (fun m => m.getD i d)

/-- The number of votes for the class with most of them. -/
def majority (votes : List Int) : Nat := (votes.map (fun c => votes.count c)).foldl max 0

end Alipy.Spec

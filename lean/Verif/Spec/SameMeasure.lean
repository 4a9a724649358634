/-! The other way of writing a matrix. -/
namespace Alipy.Spec

/-- The array with rows and columns exchanged. -/
def flipped {α : Type} (d : α) (c : Nat) (rows : List (List α)) : List (List α) := (List.range c).map (fun j => rows.map (fun r => r.getD j d))

end Alipy.Spec

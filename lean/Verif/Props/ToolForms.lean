import Verif.Model.ToolForms
import Verif.Props.Forms

/-! # C105 for the collections made by the toolbox -/
namespace Alipy.Forms
open Alipy.MLIC Alipy.MLSelect Alipy.Spec

/-- C105 (partial: tuples only): `ToolBox.MultiLabelIndexCollection` reads a list of tuples as the strategies do, with the shape of the label matrix or the shape given. -/
theorem C105_toolbox_partial (n m : Nat) (shape : Option (Nat × Nat)) (o : Order) (ps : List (Int × Int)) (hne : ps ≠ []) (h : ∀ p ∈ ps, 0 ≤ p.2 ∧ p.2 < ((shape.getD (n, m)).2 : Int)) :
    ∃ c, toolCollection n m (.tuples (ps.map tupleOf)) shape o = .ok c ∧ c.inner.Nodup ∧ c.lsz = some ((shape.getD (n, m)).2 : Int) ∧ ∀ q, q ∈ c.inner ↔ ∃ p ∈ ps, q = (p.1, .scal p.2) := by
  obtain ⟨c, hc, hn, hl, hm⟩ := mk_tuples (m := (shape.getD (n, m)).2) hne h
  obtain ⟨a, r, rfl⟩ := List.exists_cons_of_ne_nil hne
  exact ⟨c, hc, hn, hl, hm⟩

/-- C105, negative: the other documented form, an array of numbers, is always refused: the toolbox passes the array under a name (`data`) that `construct_by_1d_array` does not have. -/
theorem C105_toolbox_violation (n m : Nat) (ks : List Int) (hne : ks ≠ []) (shape : Option (Nat × Nat)) (o : Order) : toolCollection n m (.flat ks) shape o = .error .typeError := by
  obtain ⟨a, r, rfl⟩ := List.exists_cons_of_ne_nil hne
  have h : Params.call by1dSig [] toolboxArgs = .error .typeError := by decide +kernel
  simp only [toolCollection, h]

/-- C105, negative: no empty collection can be made by the toolbox, because it looks at the first entry to recognise the form; `MultiLabelIndexCollection([], m)` itself is accepted. -/
theorem C105_toolbox_empty_violation (n m : Nat) (shape : Option (Nat × Nat)) (o : Order) :
    toolCollection n m (.tuples []) shape o = .error .indexError ∧ toolCollection n m (.flat []) shape o = .error .indexError ∧ ∃ c, mk' [] (some (m : Int)) = .ok c ∧ c.inner = [] :=
  ⟨rfl, rfl, _, rfl, rfl⟩

/-- The numbers of the example in the documentation, which the constructor itself accepts. -/
example : (∃ c, by1d [1, 4, 11] 3 4 .F = .ok c) ∧ toolCollection 3 4 (.flat [1, 4, 11]) none .F = .error .typeError := ⟨⟨_, rfl⟩, by decide +kernel⟩
example : ∃ c, toolCollection 3 4 (.tuples [tupleOf (1, 0), tupleOf (2, 3)]) none .F = .ok c ∧ c.inner = [(1, .scal 0), (2, .scal 3)] := ⟨_, rfl, by decide⟩

end Alipy.Forms

import Verif.Spec.MultiLabel
import Mathlib.Data.Rat.Defs

/-! # What a call of a multi-label oracle has said about single pairs -/
namespace Alipy.Spec

/-- The pairs that were asked for, one after the other, each with its label and its cost. -/
def pairwise {β : Type} (ps : List (Int × Int)) (answer : List (List β) × List (List ℚ)) : List ((Int × Int) × β × ℚ) :=
  ps.zip (answer.1.flatten.zip answer.2.flatten)

/-- What a call costs. -/
def totalCost {β : Type} (answer : List (List β) × List (List ℚ)) : ℚ := (answer.2.map List.sum).sum

end Alipy.Spec

import Verif.Spec.Analyser
import Mathlib.Analysis.Real.Sqrt
/-!
# The area around a mean curve (C130)
-/
namespace Alipy.Spec

/-- The values in position `j` of all rows, which all have one there. -/
def Column (rows : List (List ℝ)) (j : Nat) (vs : List ℝ) : Prop := rows.map (fun r => r[j]?) = vs.map some

/-- One standard deviation around the mean. -/
noncomputable def band (vs : List ℝ) : ℝ × ℝ := (average vs - √(variance vs), average vs + √(variance vs))

end Alipy.Spec

import Verif.Model.Pool
import Mathlib.Analysis.SpecialFunctions.Exp

/-!
# The graph of `QueryInstanceGraphDensity` and a series of calls of its `select`

`alipy/query_strategy/query_labels.py` lines 921-1008. The nearest neighbours (`kneighbors_graph`) and the distances are parameters; the
densities are real numbers. `select` itself is `Select.graphDensity`.
-/
namespace Alipy.GraphDensity

/-- The loop of `_compute_graph_density`, query_labels.py lines 942-949: both entries of every edge get the weight of the edge. -/
noncomputable def weigh (dist : Nat → Nat → ℝ) (gamma : ℝ) : List (Nat × Nat) → (Nat → Nat → ℝ) → (Nat → Nat → ℝ)
  | [], c => c
  | (i, j) :: es, c =>
    let w := Real.exp (-dist i j * gamma)
    let c1 := fun a b => if a = i ∧ b = j then w else c a b
    let c2 := fun a b => if a = j ∧ b = i then w else c1 a b
    weigh dist gamma es c2

/-- `connect`, lines 934-950: 1 for the neighbours `nn i` of every `i < n`, then the weights. `connect.nonzero()` lists the edges row by
row. -/
noncomputable def connect (n : Nat) (nn : Nat → List Nat) (dist : Nat → Nat → ℝ) (gamma : ℝ) : Nat → Nat → ℝ :=
  weigh dist gamma ((List.range n).flatMap (fun i => ((List.range n).filter (fun j => decide (j ∈ nn i))).map (fun j => (i, j))))
    (fun i j => if j ∈ nn i then 1 else 0)

/-- `graph_density[i]`, line 956: the sum of row `i` divided by the number of its positive entries. -/
noncomputable def density (n : Nat) (c : Nat → Nat → ℝ) (i : Nat) : ℝ :=
  ((List.range n).map (fun j => c i j)).sum / (((List.range n).filter (fun j => 0 < c i j)).length : ℝ)

end Alipy.GraphDensity

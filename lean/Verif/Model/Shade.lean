import Verif.Model.Analyser
import Verif.Model.CostCurve
import Mathlib.Analysis.Real.Sqrt
/-!
# The shaded areas of the learning curves

`alipy/experiment/experiment_analyser.py` lines 469-500 and 680-728 with `std_area=True`: what is handed to `plt.fill_between`. The lines are those
of `Model/Analyser.lean` and `Model/CostCurve.lean`. Performances are real numbers. Colours and transparency are not modelled.
-/
namespace Alipy.Shade
open Alipy Alipy.Analyser

/-- A method in the figure: its name, the points of its line, and of its area (position, lower and upper border). Lines 492-500. -/
structure Drawing where
  name : String
  line : List (ℝ × ℝ)
  area : List (ℝ × ℝ × ℝ)

/-- `np.std`. Lines 480 and 723. -/
noncomputable def std (l : List ℝ) : ℝ := √(var l)

/-- `np.std(matrix, axis=0)` for a rectangular matrix. Line 480. -/
noncomputable def colStds (m : List (List ℝ)) : List ℝ := (List.range (m.headD []).length).map (fun j => std (m.map (fun r => r.getD j 0)))

/-- `plt.fill_between(x, points - std_points, points + std_points)`: ValueError for different lengths. Lines 494-495, 499-500. -/
noncomputable def fill (x p s : List ℝ) : Except PyErr (List (ℝ × ℝ × ℝ)) :=
  if p.length = s.length ∧ x.length = p.length then .ok (x.zip ((p.zip s).map (fun q => (q.1 - q.2, q.1 + q.2)))) else .error .valueError

/-- The loop of `plot_learning_curves` with `std_area=True`, lines 476-500, for `plot_interval = k`. -/
noncomputable def drawings (allState : Bool) (start : Option ℝ) (k : Nat) : Option ℝ → List (String × List (List ℝ) × Summary ℝ) → Except PyErr (List Drawing)
  | _, [] => .ok []
  | shift, (name, m, s) :: rest =>
    if rect m then
      let pts := colMeans m
      let sds := colStds m
      let n := pts.length
      let sh := shiftOf allState shift s
      let c : ℝ × Except PyErr (List (ℝ × ℝ)) × Except PyErr (List (ℝ × ℝ × ℝ)) := match start with
        | some p => (0, plot (xs (n + 1) k 0) (p :: every k pts), fill (xs n k (0 + 1)) (every k pts) (every k sds))
        | none => (sh, plot (xs n k sh) (every k pts), fill (xs n k sh) (every k pts) (every k sds))
      match c.2.1 with
      | .error e => .error e
      | .ok l =>
        match c.2.2 with
        | .error e => .error e
        | .ok b =>
          match drawings allState start k (some c.1) rest with
          | .error e => .error e
          | .ok ds => .ok (⟨name, l, b⟩ :: ds)
    else .error .valueError

/-- `plot_learning_curves(std_area=True)`, lines 427-500. -/
noncomputable def plotShaded (a : Analyser ℝ) (xShift start : Option ℝ) (k : Nat) : Except PyErr (List Drawing) :=
  if a.data.isEmpty then .error .assertionError else drawings a.allState start k xShift a.data

open CostCurve in
/-- One method in the figure over costs, lines 686-728: the line is moved by `x_shift` (line 724), the area is not (line 726). -/
noncomputable def drawShaded (allState : Bool) (xShift : ℝ) (start : Option ℝ) (effective step : ℝ) (m : Method ℝ) : Except PyErr Drawing :=
  let pts := m.folds.map (foldPoints (front allState start m.ip))
  if pts.any (fun p => p.isEmpty) then .error .indexError
  else match maxOf (pts.map (fun p => (p.headD (0, 0)).1)) with
    | none => .error .valueError
    | some x0 =>
      let xs := arange x0 effective step
      let p := xs.map (fun t => mean (pts.map (fun l => interp l t)))
      let s := xs.map (fun t => std (pts.map (fun l => interp l t)))
      match fill xs p s with
      | .error e => .error e
      | .ok b => .ok ⟨m.name, (xs.map (· + xShift)).zip p, b⟩

open CostCurve in
/-- `plot_learning_curves(std_area=True)` of `_CostEffectiveAnalyser`, lines 680-728. -/
noncomputable def plotShadedCost (allState : Bool) (ms : List (Method ℝ)) (xShift : ℝ) (start interval : Option ℝ) : Except PyErr (List Drawing) :=
  match totalCost ms with
  | .error e => .error e
  | .ok (_, c) => ms.mapM (drawShaded allState xShift start c (interval.getD (c / 100)))

end Alipy.Shade

import Verif.Model.Analyser
import Mathlib.Algebra.Order.Floor.Semiring
import Mathlib.Algebra.Order.Floor.Ring
/-!
# Model of the analyser for costs, `alipy/experiment/experiment_analyser.py` lines 544-725

The points handed to `plt.plot`. Performances and costs are elements of an ordered field with a floor function. Cumulative costs are assumed to increase
where it matters (scipy sorts them otherwise); `plot_interval` is positive.
-/
namespace Alipy.CostCurve
open Alipy Alipy.Analyser

variable {K : Type} [Field K] [LinearOrder K]

/-- One query of a fold: its costs (one for every queried label) and the performance afterwards. Lines 577 and 626. -/
structure Query (K : Type) where
  cost : List K
  perf : K

/-- A method in the analyser: the data extracted, and the initial point in the summary. Lines 577-578. -/
structure Method (K : Type) where
  name : String
  folds : List (List (Query K))
  ip : Option K

/-- The method stored for StateIO objects with the states given, lines 575-590: the summary has the initial point of the last fold (line 284 in `_ContentSummary`). -/
def ofStates (name : String) (fs : List (Option K × List (Query K))) : Method K := { name := name, folds := fs.map Prod.snd, ip := fs.getLast?.bind Prod.fst }

/-- The method stored for lists of pairs (cost, performance), lines 591-594. -/
def ofLists (name : String) (fs : List (List (Query K))) : Method K := { name := name, folds := fs, ip := none }

/-- `[np.sum(query_info[0]) for query_info in fold]`, lines 626 and 687. -/
def sums (f : List (Query K)) : List K := f.map (fun q => q.cost.sum)

/-- The total costs of all folds of all methods, lines 623-630. -/
def totals (ms : List (Method K)) : List K := (ms.map (fun m => m.folds.map (fun f => (sums f).sum))).flatten

/-- `min` of a set. Line 634. -/
def minOf : List K → Option K
  | [] => none
  | a :: l => match minOf l with
    | none => some a
    | some b => some (min a b)

/-- `max` of a list. Line 716. -/
def maxOf : List K → Option K
  | [] => none
  | a :: l => match maxOf l with
    | none => some a
    | some b => some (max a b)

/-- `_check_and_get_total_cost`, lines 603-634: are the total costs the same, and the smallest one. ValueError for `min` of an empty set. -/
def totalCost (ms : List (Method K)) : Except PyErr (Bool × K) :=
  match minOf (totals ms) with
  | none => .error .valueError
  | some c => .ok ((totals ms).dedup.length == 1, c)

/-- The cumulative costs, lines 687-692. -/
def xAxis (f : List (Query K)) : List K := (List.range f.length).map (fun i => ((sums f).take (i + 1)).sum)

/-- Linear interpolation between the points on both sides. `interp1d`, line 714. -/
def lin : List (K × K) → K → K
  | [], _ => 0
  | [p], _ => p.2
  | p :: q :: l, t => if t ≤ q.1 then p.2 + (q.2 - p.2) / (q.1 - p.1) * (t - p.1) else lin (q :: l) t

/-- `interpolate.interp1d(x, y, bounds_error=False, fill_value=0.1)`, line 714. -/
def interp (pts : List (K × K)) (t : K) : K :=
  match pts.head?, pts.getLast? with
  | some p, some q => if t < p.1 ∨ q.1 < t then 1 / 10 else lin pts t
  | _, _ => 1 / 10

/-- The start point in use, lines 696-708. -/
def front (allState : Bool) (start ip : Option K) : Option K :=
  match start with
  | some p => some p
  | none => if !allState || ip.isNone then none else ip

/-- The points of a fold, lines 687-708. -/
def foldPoints (fr : Option K) (f : List (Query K)) : List (K × K) :=
  (fr.toList.map (fun p => (0, p))) ++ (xAxis f).zip (f.map Query.perf)

variable [FloorRing K] [IsStrictOrderedRing K]

/-- `np.arange(start, stop, step)`. Line 716. -/
def arange (start stop step : K) : List K := (List.range ⌈(stop - start) / step⌉₊).map (fun i : Nat => start + (i : K) * step)

/-- The curve of one method, lines 686-725. IndexError for a fold without points, ValueError for a method without folds. -/
def drawMethod (allState : Bool) (xShift : K) (start : Option K) (effective step : K) (m : Method K) : Except PyErr (String × List (K × K)) :=
  let pts := m.folds.map (foldPoints (front allState start m.ip))
  if pts.any (fun p => p.isEmpty) then .error .indexError
  else match maxOf (pts.map (fun p => (p.headD (0, 0)).1)) with
    | none => .error .valueError
    | some x0 =>
      let xs := arange x0 effective step
      .ok (m.name, xs.map (fun t => (t + xShift, mean (pts.map (fun p => interp p t)))))

/-- `plot_learning_curves` of `_CostEffectiveAnalyser`, lines 680-725: `plot_interval` defaults to a hundredth of the effective cost. -/
def plotCurves (allState : Bool) (ms : List (Method K)) (xShift : K) (start interval : Option K) : Except PyErr (List (String × List (K × K))) :=
  match totalCost ms with
  | .error e => .error e
  | .ok (_, c) => ms.mapM (drawMethod allState xShift start c (interval.getD (c / 100)))

end Alipy.CostCurve

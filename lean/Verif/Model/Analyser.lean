import Verif.Model.Py
import Mathlib.Algebra.Order.Field.Basic
import Mathlib.Algebra.BigOperators.Group.List.Basic
/-!
# Model of `alipy/experiment/experiment_analyser.py`: collecting results, summaries and the points of the curves

Performances are elements of an ordered field `K`. What is modelled of plotting is the list of points handed to `plt.plot`. The checks before plotting, with
warnings, NaN and infinity (`_check_plotting`, lines 381-397), are in Model/PlotCheck.lean. A result with folds of different lengths is no rectangular matrix: `np.mean` over it raises an exception
whose class depends on the version of numpy (here ValueError).
-/
namespace Alipy.Analyser
open Alipy

variable {K : Type} [Field K] [LinearOrder K]

/-- One fold given as a `StateIO` object: `initial_point`, and performance of the states with the cost stored there, if any. experiment_analyser.py lines 283-288. -/
structure Fold (K : Type) where
  ip : Option K
  perf : List K

/-- The results of a method: `StateIO` objects, or a list with the performances of every fold. Lines 337-342, 366 and 374. -/
inductive Results (K : Type) where
  | states (folds : List (Fold K))
  | lists (folds : List (List K))

/-- `np.mean`. Lines 292-293, 301 and 477. -/
def mean (l : List K) : K := l.sum / l.length

/-- `np.var` (`np.std` is its root). Lines 294 and 302. -/
def var (l : List K) : K := mean (l.map (fun x => (x - mean l) * (x - mean l)))

/-- `np.min` of a list of lengths. Lines 279 and 298. -/
def minLen : List Nat → Nat
  | [] => 0
  | [a] => a
  | a :: l => min a (minLen l)

/-- Do all rows have the same length?. `np.mean` over an axis needs it, lines 292 and 477. -/
def rect {α : Type} (m : List (List α)) : Bool := m.all (fun r => r.length == (m.headD []).length)

/-- `_ContentSummary`, lines 228-310: effective length, number of folds, initial point, mean, and the square of the standard deviation. -/
structure Summary (K : Type) where
  effective : Nat
  folds : Nat
  ip : Option K
  mean : K
  var : K

/-- `stateio_summary`, lines 256-294: only the first `effective_length` states count, the initial point is added in front; `np.mean(ex_data, axis=1)`.
`self.ip` is overwritten for every fold. -/
def stateSummary (fs : List (Fold K)) : Except PyErr (Summary K) :=
  let n := minLen (fs.map (fun f => f.perf.length))
  let ex := fs.map (fun f => f.ip.toList ++ f.perf.take n)
  if rect ex then
    .ok { effective := n, folds := fs.length, ip := (fs.getLast?).bind Fold.ip, mean := mean (ex.map mean), var := var (ex.map mean) }
  else .error .valueError

/-- `list_summary` for lists of performances, lines 296-302. -/
def listSummary (fs : List (List K)) : Except PyErr (Summary K) :=
  if rect fs then .ok { effective := minLen (fs.map List.length), folds := fs.length, ip := none, mean := mean fs.flatten, var := var fs.flatten }
  else .error .valueError

/-- `extract_matrix('performance')`, lines 181-192: the initial point, if there is one, and the performances. -/
def extract (fs : List (Fold K)) : List (List K) := fs.map (fun f => f.ip.toList ++ f.perf)

/-- `_NumOfQueryAnalyser`: `_data_extracted` and `_data_summary` (dictionaries, in the order of insertion), `_is_all_stateio`. Lines 313-320, 345-347 and 364-377. -/
structure Analyser (K : Type) where
  data : List (String × List (List K) × Summary K)
  allState : Bool

/-- `d[key] = value` for a dictionary. Lines 346-347. -/
def put {β : Type} (l : List (String × β)) (k : String) (v : β) : List (String × β) :=
  if l.any (fun p => p.1 == k) then l.map (fun p => if p.1 == k then (k, v) else p) else l ++ [(k, v)]

/-- `add_method`, lines 322-379. `_type_of_data` raises IndexError for an empty list. If the summary raises, the data have been stored already and
`_is_all_stateio` has been set; the object is then not used any further here. -/
def addMethod (a : Analyser K) (name : String) (r : Results K) : Except PyErr (Analyser K) :=
  match r with
  | .states [] => .error .indexError
  | .lists [] => .error .indexError
  | .states fs =>
    match stateSummary fs with
    | .error e => .error e
    | .ok s => .ok { data := put a.data name (extract fs, s), allState := true }
  | .lists fs =>
    match listSummary fs with
    | .error e => .error e
    | .ok s => .ok { data := put a.data name (fs, s), allState := false }

/-- The analyser after adding methods one after the other. Calls of `add_method`, line 322. -/
def addMethods (a : Analyser K) : List (String × Results K) → Except PyErr (Analyser K)
  | [] => .ok a
  | (n, r) :: l =>
    match addMethod a n r with
    | .error e => .error e
    | .ok a' => addMethods a' l

/-- `np.mean(matrix, axis=0)` for a rectangular matrix. Line 477. -/
def colMeans (m : List (List K)) : List K := (List.range (m.headD []).length).map (fun j => mean (m.map (fun r => r.getD j 0)))

/-- The points kept, line 482: those whose position is a multiple of the interval. -/
def every (k : Nat) (l : List K) : List K := if k = 1 then l else ((List.range l.length).filter (fun i => i % k == 0)).map (fun i => l.getD i 0)

/-- `np.arange(n, step=k) + shift`. Lines 492 and 497. -/
def xs (n k : Nat) (shift : K) : List K := ((List.range n).filter (fun i => i % k == 0)).map (fun i : Nat => (i : K) + shift)

/-- `plt.plot(x, y)`: ValueError for lists of different length. Lines 492 and 497. -/
def plot (x y : List K) : Except PyErr (List (K × K)) := if x.length = y.length then .ok (x.zip y) else .error .valueError

/-- The shift of a method, lines 485-491. -/
def shiftOf (allState : Bool) (shift : Option K) (s : Summary K) : K := match shift with
  | some x => x
  | none => if !allState || s.ip.isNone then 1 else 0

/-- The loop of `plot_learning_curves`, lines 476-500 (without the shaded areas, which are in `Model/Shade.lean`), for `plot_interval = k`. `x_shift` is set once and kept for the methods
that follow. -/
def curves (allState : Bool) (start : Option K) (k : Nat) : Option K → List (String × List (List K) × Summary K) → Except PyErr (List (String × List (K × K)))
  | _, [] => .ok []
  | shift, (name, m, s) :: rest =>
    if rect m then
      let pts := colMeans m
      let n := pts.length
      let sh := shiftOf allState shift s
      let c : K × Except PyErr (List (K × K)) := match start with
        | some p => (0, plot (xs (n + 1) k 0) (p :: every k pts))
        | none => (sh, plot (xs n k sh) (every k pts))
      match c.2 with
      | .error e => .error e
      | .ok l =>
        match curves allState start k (some c.1) rest with
        | .error e => .error e
        | .ok ls => .ok ((name, l) :: ls)
    else .error .valueError

/-- `plot_learning_curves`. Lines 427-500. -/
def plotCurves (a : Analyser K) (xShift start : Option K) (k : Nat) : Except PyErr (List (String × List (K × K))) :=
  if a.data.isEmpty then .error .assertionError else curves a.allState start k xShift a.data

end Alipy.Analyser

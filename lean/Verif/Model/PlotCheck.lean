import Verif.Model.Py
import Mathlib.Data.List.Dedup

/-! # Model of the checks made by `alipy/experiment/experiment_analyser.py` before plotting, and of the batch size shown by the summary -/
namespace Alipy.PlotCheck
open Alipy

/-- A performance: a finite number, NaN or an infinity. experiment_analyser.py lines 391 and 394. -/
inductive Perf (K : Type) where
  | num (x : K)
  | nan
  | inf (positive : Bool)
  deriving DecidableEq

/-- The Python type of an initial point. Lines 419 and 422-423. -/
inductive IpType where
  | none
  | int
  | float
  | npFloat
  deriving DecidableEq, Repr

/-- `isinstance(a, type(b))`: `np.float64` is a subclass of `float`. Lines 422-423. -/
def isInstance (a b : IpType) : Bool := a = b || (a = .npFloat && b = .float)

/-- `StateIO.check_batch_size`, state_io.py lines 204-218, on the batch sizes of the queries: the batch size found, if there is exactly one. -/
def checkBatch (sizes : List Nat) : Option Nat :=
  match (sizes.take (sizes.length - 1)).dedup with
  | [b] => some b
  | _ => none

/-- `_ContentSummary.batch_flag` and `batch_size`, lines 241-243 and 265-273: `False` and 0 unless every fold passes the check and all folds have
the same size. -/
def batchSummary (folds : List (List Nat)) : Bool × Nat :=
  if folds.all (fun f => (checkBatch f).isSome) then
    match (folds.filterMap checkBatch).dedup with
    | [b] => (true, b)
    | _ => (false, 0)
  else (false, 0)

/-- The part of a summary that the check looks at. Lines 416-419. -/
structure Info where
  batch : Nat
  effective : Nat
  folds : Nat
  ip : IpType
  deriving DecidableEq

/-- `_check_methods_continuity`, lines 399-425: every method is compared with the first one. -/
def continuity : List Info → Bool
  | [] => true
  | a :: l => l.all fun s => !(a.batch != s.batch || a.effective != s.effective || a.folds != s.folds || !isInstance a.ip s.ip)

/-- The truth value of the expression `self._check_methods_continuity` of line 387: it names the method and does not call it, and a bound method is true. -/
def boundMethodTruth : Bool := true

/-- What a check ends with: was a warning given, and the exception raised if any. Lines 387-397. -/
structure Outcome where
  warned : Bool
  error : Option PyErr
  deriving DecidableEq

/-- The loop of lines 390-396 over the extracted matrices (all rows of a method have the same length, otherwise `np.isnan` fails on its own). -/
def scan {K : Type} : List (List (List (Perf K))) → Option PyErr
  | [] => none
  | m :: r =>
    if m.flatten.any (fun v => match v with | .nan => true | _ => false) then some .valueError
    else if m.flatten.any (fun v => match v with | .inf _ => true | _ => false) then some .valueError
    else scan r

/-- `_check_plotting`, lines 381-397. -/
def checkPlotting {K : Type} (data : List (List (List (Perf K)))) (_infos : List Info) : Outcome :=
  { warned := !boundMethodTruth, error := scan data }

/-- How the results of a method were passed. Lines 337-342, 366 and 374. -/
inductive Kind where
  | states
  | lists
  deriving DecidableEq

/-- The checks at the start of `plot_learning_curves`, lines 470-472, after adding methods in the given order with new names. `_is_all_stateio` is set by
every `add_method` (lines 345, 364, 376), so the last one decides. -/
def plotStart {K : Type} (ms : List (Kind × Info × List (List (Perf K)))) : Outcome :=
  match ms.getLast? with
  | none => ⟨false, some .assertionError⟩
  | some (.states, _) => checkPlotting (ms.map fun m => m.2.2) (ms.map fun m => m.2.1)
  | some (.lists, _) => ⟨false, none⟩

end Alipy.PlotCheck

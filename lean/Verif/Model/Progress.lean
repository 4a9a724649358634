import Verif.Model.Py
import Mathlib.Data.Rat.Defs
import Mathlib.Algebra.Order.Field.Rat
import Mathlib.Algebra.BigOperators.Group.List.Basic

/-! # Model of the progress shown by a `StateIO`: `alipy/experiment/state_io.py` lines 80-114, 165-186, 296-320, 353-370 -/
namespace Alipy.Progress
open Alipy

/-- The `performance` of a state: a number or something iterable. state_io.py lines 316-320. -/
inductive PVal where
  | num (q : ℚ)
  | iter
  deriving DecidableEq

/-- A recorded query, as far as the progress is concerned: performance, and the cost if there is one (its sum). state_io.py lines 316 and 349-350. -/
structure Rec where
  perf : PVal
  cost : Option ℚ
  deriving DecidableEq

/-- `np.mean`. Line 320. -/
def mean (l : List ℚ) : ℚ := l.sum / l.length

/-- The square of `np.std`. Line 320. -/
def var (l : List ℚ) : ℚ := mean (l.map fun x => (x - mean l) * (x - mean l))

/-- A pair of numbers shown, or NaN twice. Lines 314-320. -/
inductive MeanStd where
  | val (mean var : ℚ)
  | nan
  deriving DecidableEq

/-- The numbers of a list of performances. Line 316. -/
def nums : List PVal → Option (List ℚ)
  | [] => some []
  | .num q :: r => (nums r).map (q :: ·)
  | .iter :: _ => none

/-- `get_current_performance`, lines 300-320. `np.mean` of numbers and iterables mixed raises an exception whose class depends on numpy (here ValueError). -/
def currentPerformance (rs : List Rec) : Except PyErr MeanStd :=
  match rs with
  | [] => .ok (.val 0 0)
  | r :: _ =>
    match r.perf with
    | .iter => .ok .nan
    | .num _ =>
      match nums (rs.map Rec.perf) with
      | some l => .ok (.val (mean l) (var l))
      | none => .error .valueError

/-- What one table or line shows, lines 353-366: initially labelled data and their percentage, number of queries, cost, performance. -/
structure Row where
  labelled : Nat
  percent : ℚ
  queries : Nat
  cost : ℚ
  perf : MeanStd
  deriving DecidableEq

/-- Printed text: the whole table (line 182) or only its line of data (line 185). -/
inductive Print where
  | table (r : Row)
  | line (r : Row)
  deriving DecidableEq

/-- A `StateIO`: sizes of the initial sets, the settings of printing, the recorded queries, the total cost, `_first_print`. Lines 83-85 and 98-116. -/
structure Saver where
  nL : Nat
  nU : Nat
  verbose : Bool
  interval : Nat
  recs : List Rec
  cost : ℚ
  first : Bool

/-- A new object, lines 79-116. -/
def fresh (nL nU : Nat) (verbose : Bool) (interval : Nat) : Saver := ⟨nL, nU, verbose, interval, [], 0, true⟩

/-- `__repr__`, lines 353-366: the percentage is computed before the performance. -/
def row (s : Saver) : Except PyErr Row :=
  if s.nL + s.nU = 0 then .error .zeroDivisionError
  else
    match currentPerformance s.recs with
    | .error e => .error e
    | .ok p => .ok ⟨s.nL, 100 * s.nL / (s.nL + s.nU : ℕ), s.recs.length, s.cost, p⟩

/-- `add_state` with a `State`, lines 177-186: the state is appended and the total cost updated before anything is printed. -/
def add (s : Saver) (r : Rec) : Saver × Option Print × Option PyErr :=
  let s := { s with recs := s.recs ++ [r], cost := s.cost + r.cost.getD 0 }
  if s.verbose then
    if s.interval = 0 then (s, none, some .zeroDivisionError)
    else if s.recs.length % s.interval = 0 then
      match row s with
      | .error e => (s, none, some e)
      | .ok t => if s.first then ({ s with first := false }, some (.table t), none) else (s, some (.line t), none)
    else (s, none, none)
  else (s, none, none)

/-- Adding states one after the other; the first exception ends it. The printed texts in order. Lines 165-186. -/
def addAll (s : Saver) : List Rec → Saver × List Print × Option PyErr
  | [] => (s, [], none)
  | r :: rs =>
    match add s r with
    | (s', p, some e) => (s', p.toList, some e)
    | (s', p, none) =>
      let o := addAll s' rs
      (o.1, p.toList ++ o.2.1, o.2.2)

end Alipy.Progress

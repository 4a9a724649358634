import Verif.Model.Progress
import Mathlib.Data.Nat.Digits.Defs
import Mathlib.Data.Rat.Floor
/-!
# The progress table of `aceThreading`

`alipy/utils/multi_thread.py` lines 188-253: when it is printed while the workers run, the elapsed time and the performance it shows.
Numbers of the clocks are exact rationals. The layout of the table (`prettytable`) and the rounding of the performance to three digits
are not modelled.
-/
namespace Alipy.Display
open Alipy.Progress

/-! ## When the table is printed -/

/-- `_if_refresh`, multi_thread.py lines 248-253: the clock is read for the comparison (`now`) and, if the table is to be printed, once more
(`again`). The answer and `_start_time` afterwards. -/
def ifRefresh (interval last now again : ℚ) : Bool × ℚ := if now - last > interval then (true, again) else (false, last)

/-- The polls of the waiting loops, multi_thread.py lines 203-206 and 224-226, with the two readings of the clock of each: the times `_start_time`
is set to when the table is printed. -/
def refreshes (interval : ℚ) : ℚ → List (ℚ × ℚ) → List ℚ
  | _, [] => []
  | last, (now, again) :: r =>
    match ifRefresh interval last now again with
    | (true, t) => t :: refreshes interval t r
    | (false, t) => refreshes interval t r

/-! ## The elapsed time -/

/-- `'%d'` of a number that is not negative, multi_thread.py line 242. -/
def dec (n : Nat) : List Char := if n = 0 then ['0'] else ((Nat.digits 10 n).map Nat.digitChar).reverse

/-- `'%02d'`: at least two characters, multi_thread.py line 242. -/
def dec2 (n : Nat) : List Char := List.replicate (2 - (dec n).length) '0' ++ dec n

/-- `divmod(x, 60)`, multi_thread.py lines 240-241. -/
def divmod60 (x : ℚ) : ℚ × ℚ := ((⌊x / 60⌋ : ℤ), x - 60 * (⌊x / 60⌋ : ℤ))

/-- The numbers before formatting: hours, minutes, seconds. multi_thread.py lines 240-241. -/
def hms (t : ℚ) : ℚ × ℚ × ℚ :=
  let (m, s) := divmod60 t
  let (h, m') := divmod60 m
  (h, m', s)

/-- The column `time_elapse` of a round: `start` is `none` for -1 (not started by this object), multi_thread.py lines 236-242. The format `%02d` cuts
off the fraction. Simplified: a clock that is set back (negative time) is not modelled, the fields are cut at 0. -/
def clock (start : Option ℚ) (now : ℚ) : List Char :=
  match start with
  | none => ['0']
  | some s =>
    let (h, m, sec) := hms (now - s)
    dec2 ⌊h⌋.toNat ++ ':' :: dec2 ⌊m⌋.toNat ++ ':' :: dec2 ⌊sec⌋.toNat

/-! ## The performance, read while the worker goes on -/

/-- `[self[i].get_value('performance') for i in range(n)]` where `h k` is the list of states when the program makes its `k`-th access to the
saver: each element is read from the list as it is at that moment. state_io.py line 316. -/
def readAll (h : Nat → List Rec) (n : Nat) : (k i : Nat) → Nat → Except PyErr (List Rec)
  | _, _, 0 => .ok []
  | k, i, f + 1 =>
    match (h k)[i]? with
    | none => .error .indexError
    | some r =>
      match readAll h n (k + 1) (i + 1) f with
      | .error e => .error e
      | .ok l => .ok (r :: l)

/-- `len(self)` and `get_current_performance` with a list of states that the worker of the round may change between any two accesses: the number for
the column, the test for emptiness, the length for the loop, the elements. multi_thread.py lines 243-245, state_io.py lines 313-320. -/
def rowPerformance (h : Nat → List Rec) : Except PyErr (Nat × MeanStd) :=
  let shown := (h 0).length
  if (h 1).length = 0 then .ok (shown, .val 0 0)
  else
    match readAll h (h 2).length 3 0 (h 2).length with
    | .error e => .error e
    | .ok [] => .error .indexError
    | .ok l =>
      match currentPerformance l with
      | .error e => .error e
      | .ok p => .ok (shown, p)

/-- A line of the table: round, number of queries, time, performance. multi_thread.py lines 235-245. -/
structure Line where
  round : Nat
  queries : Nat
  time : List Char
  perf : MeanStd

/-- The lines from saver `i` on, multi_thread.py lines 235-245. For each saver: its round, the start of its thread, the time at which its line is
made, and its list of states during that. -/
def lines : List (Nat × Option ℚ × ℚ × (Nat → List Rec)) → Except PyErr (List Line)
  | [] => .ok []
  | (rd, start, now, h) :: rest =>
    match rowPerformance h with
    | .error e => .error e
    | .ok (n, p) =>
      match lines rest with
      | .error e => .error e
      | .ok ls => .ok (⟨rd, n, clock start now, p⟩ :: ls)

end Alipy.Display

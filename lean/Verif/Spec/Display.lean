import Verif.Model.Progress
import Mathlib.Data.Rat.Floor
/-!
# What a progress table should say (C129)
-/
namespace Alipy.Spec
open Alipy.Progress

/-- The value of a text of decimal digits, read from left to right; `none` if a character is not a digit. -/
def readNat : Nat → List Char → Option Nat
  | acc, [] => some acc
  | acc, c :: r => if '0' ≤ c ∧ c ≤ '9' then readNat (10 * acc + (c.toNat - '0'.toNat)) r else none

/-- The seconds that a clock like `01:02:03` shows: the last two characters are the seconds, the two before a colon the minutes, all before
another colon the hours. -/
def readClock (t : List Char) : Option Nat :=
  match t.reverse with
  | s0 :: s1 :: ':' :: m0 :: m1 :: ':' :: h =>
    match readNat 0 [s1, s0], readNat 0 [m1, m0], readNat 0 h.reverse with
    | some s, some m, some h => if s < 60 ∧ m < 60 then some (3600 * h + 60 * m + s) else none
    | _, _, _ => none
  | _ => none

/-- The worker only adds states while the table is made. -/
def OnlyAdds (h : Nat → List Rec) : Prop := ∀ k, h k <+: h (k + 1)

/-- Two readings of a clock that never goes back, in the order of the program. -/
def ClockRuns : ℚ → List (ℚ × ℚ) → Prop
  | _, [] => True
  | last, (a, b) :: r => last ≤ a ∧ a ≤ b ∧ ClockRuns b r

end Alipy.Spec

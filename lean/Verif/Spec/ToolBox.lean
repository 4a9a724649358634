import Verif.Model.ToolBox
import Verif.Spec.Split

/-! # What a toolbox is meant to keep -/
namespace Alipy.TB

/-- One run of a script: the arguments it constructs its toolbox with, and what it passes to `split_AL`. -/
structure Script (χ : Type) where
  y : YArr
  X : Option (List χ)
  width : Int
  names : Option (List Int)
  qtype : String
  given : Given
  testRatio : ℚ
  rate : ℚ
  allClass : Bool
  shuffles : List (List Sh)

/-- `box = ToolBox(..., saving_path=p); splits = box.split_AL(...)`. The outer `none`: `split_AL` does not return. -/
def Script.run {χ : Type} (p : String) (d : Disk χ) (c : Script χ) : Option (Disk χ × Except PyErr (Box χ × Splits)) :=
  match new d c.y c.X c.width c.names c.qtype c.given (some p) with
  | (d, .error e) => some (d, .error e)
  | (d, .ok b) =>
    match splitAL d b c.testRatio c.rate c.allClass c.shuffles with
    | none => none
    | some (d, _, .error e) => some (d, .error e)
    | some (d, b, .ok s) => some (d, .ok (b, s))

/-- Several runs one after the other on the same disk; a run that does not return ends the sequence (it is interrupted; what it has left
on the disk is what its constructor wrote). The results of the runs that returned. -/
def runs {χ : Type} (p : String) : Disk χ → List (Script χ) → List (Except PyErr (Box χ × Splits))
  | _, [] => []
  | d, c :: r =>
    match c.run p d with
    | none => runs p (new d c.y c.X c.width c.names c.qtype c.given (some p)).1 r
    | some (d, res) => res :: runs p d r

end Alipy.TB

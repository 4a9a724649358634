import Verif.Model.Alias

/-! What a record should be: a list of values (trees without identity), taken when the states were added. -/
namespace Alipy.Spec
open Alias

/-- A value as it can be printed, down to some depth. -/
inductive Shown where
  | atom (a : Int)
  | node (l : List Shown)
  | deeper

/-- What a value looks like, down to depth `n`. Two values are equal as Python values if they look the same down to every depth. -/
def shows (h : Heap) : Nat → PV → Shown
  | _, .atom a => .atom a
  | 0, .ref _ => .deeper
  | n + 1, .ref r => .node ((h.cell r).map (shows h n))

/-- The values that a program with the variables `vars` can get hold of: constants, its variables, and what is stored in the objects it can get
hold of. -/
inductive Within (h : Heap) (vars : List PV) : PV → Prop where
  | const (a : Int) : Within h vars (.atom a)
  | var {v : PV} : v ∈ vars → Within h vars v
  | slot {r : Nat} {v : PV} : Within h vars (.ref r) → v ∈ h.cell r → Within h vars v

/-- A program uses the saver: it makes objects and states from values it can get hold of, changes in place objects it can get hold of, and calls
the methods of the saver, but does not index the saver (`saver[i]`) or iterate over it. `rec` is what should be recorded (down to depth `n`): what
the added states looked like when they were added, without those removed. -/
inductive Uses (n : Nat) (s0 : Sys) : Sys → List Shown → Prop where
  | start : Uses n s0 s0 []
  | make {s : Sys} {rec : List Shown} {slots : List PV} : Uses n s0 s rec → (∀ v ∈ slots, Within s.heap s.vars v) → Uses n s0 (s.make slots) rec
  | write {s : Sys} {rec : List Shown} {r : Nat} {slots : List PV} : Uses n s0 s rec → Within s.heap s.vars (.ref r) →
      (∀ v ∈ slots, Within s.heap s.vars v) → Uses n s0 (s.write r slots) rec
  | newState {s : Sys} {rec : List Shown} {sel perf lab cost : PV} : Uses n s0 s rec →
      (∀ v ∈ [sel, perf, lab, cost], Within s.heap s.vars v) → Uses n s0 (s.newState sel perf lab cost) rec
  | setValue {s : Sys} {rec : List Shown} {r i : Nat} {v : PV} : Uses n s0 s rec → Within s.heap s.vars (.ref r) → Within s.heap s.vars v →
      Uses n s0 (s.setValue r i v) rec
  | addState {s : Sys} {rec : List Shown} {v : PV} : Uses n s0 s rec → Within s.heap s.vars v →
      Uses n s0 (s.addState v) (rec ++ [shows s.heap n v])
  | getState {s s' : Sys} {rec : List Shown} {i : Nat} {v : PV} : Uses n s0 s rec → s.getState i = some (s', v) → Uses n s0 s' rec
  | pop {s s' : Sys} {rec : List Shown} {i : Nat} {v : PV} : Uses n s0 s rec → s.pop i = some (s', v) → Uses n s0 s' (rec.eraseIdx i)
  | workspace {s : Sys} {rec : List Shown} {idx : List Int} : Uses n s0 s rec → Uses n s0 (s.workspace idx) rec
  | recover {s : Sys} {rec : List Shown} {k : Nat} {idx : List Int} : Uses n s0 s rec → Uses n s0 (s.recover k idx) (rec.take k)
  | setInitial {s : Sys} {rec : List Shown} {v : PV} : Uses n s0 s rec → Within s.heap s.vars v → Uses n s0 (s.setInitial v) rec

/-- All references lead to objects. -/
def Sound (h : Heap) (vs : List PV) : Prop :=
  (∀ r, .ref r ∈ vs → r < h.next) ∧ ∀ q < h.next, ∀ r, .ref r ∈ h.cell q → r < h.next

/-- An object of indexes. -/
def Flat (h : Heap) (v : PV) : Prop := ∀ r, v = .ref r → ∀ w ∈ h.cell r, ∃ a, w = .atom a

end Alipy.Spec

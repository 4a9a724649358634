import Verif.Model.Py
import Verif.Model.Sort

/-!
# Model of `alipy/index/index_collections.py`, class `IndexCollection` (lines 26-226)
and the inherited methods of `BaseCollection` (`alipy/utils/interface.py`, lines 101-150).

A method returns the new object together with the exception raised, if any: Python objects keep the
changes made before the exception.  Warnings are not modelled.
-/
namespace Alipy

/-- `self._innercontainer` (a Python list) and `self._element_type` (class attribute `None` until set;
interface.py lines 109-110). -/
structure IC where
  inner : List Val
  ety : Option Ty
  deriving DecidableEq, Repr

namespace IC

/-- Result of a method call: the object afterwards, and the exception if one was raised. index_collections.py lines 112-209. -/
abbrev Res := IC × Option PyErr

/-- numpy's common dtype of a list of scalars: strings win over integers, integers over booleans
(`np.unique([i for i in data], axis=0)` builds an array first, index_collections.py line 75). -/
def coerce (data : List Val) : List Base :=
  if data.any (fun v => v.base.kind == .str) then data.map (fun v => .str v.base.toStr)
  else if data.any (fun v => v.base.kind == .int) then
    data.map (fun v => match v.base.key with | .num n => .int n | .str s => .str s)
  else data.map (·.base)

/-- Remove repeated elements (keeping first occurrences). Used by index_collections.py line 75. -/
def uniq : List Base → List Base
  | [] => []
  | b :: bs => b :: (uniq bs).filter (fun c => !(c.key == b.key))

/-- `list(np.unique(data, axis=0))`, index_collections.py line 75: the sorted distinct elements, as
numpy scalars. -/
def npUnique (data : List Val) : List Val :=
  (sortBy Base.le (uniq (coerce data))).map (fun b => ⟨true, b⟩)

/-- `IndexCollection(None)` and `IndexCollection([])`, index_collections.py lines 66-67. -/
def empty : IC := ⟨[], none⟩

/-- `IndexCollection(data)` for a list or array of scalars, index_collections.py lines 65-88.
The type check of lines 80-82 cannot fail since an array has one dtype; the element type is that of
the first element after `.item()` (lines 83-88). Lists of tuples are the subject of the multi-label
model. -/
def mk' (data : List Val) : IC :=
  match npUnique data with
  | [] => empty
  | v :: vs => ⟨v :: vs, some v.item.ty⟩

/-- `IndexCollection(other)` for an IndexCollection, index_collections.py lines 69-72. -/
def copy (c : IC) : IC := if c.inner.isEmpty then empty else c

/-- `add`, index_collections.py lines 129-144. Note that line 130 stores the type of the *argument*,
before `.item()` is applied in line 134. -/
def add (c : IC) (v : Val) : Res :=
  let c := match c.ety with
    | none => { c with ety := some v.ty }
    | some _ => c
  let v := v.item
  match c.ety with
  | none => (c, none)
  | some t =>
    if !isInstance v t then (c, some .typeError)
    else if pyMem v c.inner then (c, none)
    else ({ c with inner := c.inner ++ [v] }, none)

/-- `list.remove(v)`: drop the first element equal to `v`. index_collections.py line 166. -/
def eraseFirst (v : Val) : List Val → List Val
  | [] => []
  | w :: ws => if pyEq v w then ws else w :: eraseFirst v ws

/-- `discard`, index_collections.py lines 161-167. -/
def discard (c : IC) (v : Val) : IC :=
  if pyMem v c.inner then { c with inner := eraseFirst v c.inner } else c

/-- `for item in other: self.add(item)` over a separate list, index_collections.py lines 207-208. -/
def addAll (c : IC) : List Val → Res
  | [] => (c, none)
  | v :: vs =>
    match c.add v with
    | (c', none) => addAll c' vs
    | (c', some e) => (c', some e)

/-- `for item in other: self.discard(item)` over a separate list, index_collections.py lines 186-187. -/
def discardAll (c : IC) : List Val → IC
  | [] => c
  | v :: vs => discardAll (c.discard v) vs

/-- `for item in other: self.add(item)` where `other` is the collection itself: Python's list
iterator reads position `i` of the *current* list. `add` of a present element never appends, so
`fuel = len + 1` steps are enough. index_collections.py lines 207-208. -/
def addSelf : Nat → Nat → IC → Res
  | 0, _, c => (c, none)
  | fuel + 1, i, c =>
    match c.inner[i]? with
    | none => (c, none)
    | some v =>
      match c.add v with
      | (c', none) => addSelf fuel (i + 1) c'
      | (c', some e) => (c', some e)

/-- `for item in other: self.discard(item)` where `other` is the collection itself. The position grows
and the list shrinks, so `fuel = len + 1` steps are enough. index_collections.py lines 186-187. -/
def discardSelf : Nat → Nat → IC → IC
  | 0, _, c => c
  | fuel + 1, i, c =>
    match c.inner[i]? with
    | none => c
    | some v => discardSelf fuel (i + 1) (c.discard v)

/-- The argument of `update` / `difference_update`: several indexes (list, array or another
collection), one object, or the collection itself. index_collections.py lines 184-185 and 205-206. -/
inductive Arg where
  | many (vs : List Val)
  | one (v : Val)
  | self
  deriving Repr

/-- `update`, index_collections.py lines 205-209. -/
def update (c : IC) : Arg → Res
  | .many vs => c.addAll vs
  | .one v => c.addAll [v]
  | .self => addSelf (c.inner.length + 1) 0 c

/-- `difference_update`, index_collections.py lines 184-188. -/
def differenceUpdate (c : IC) : Arg → IC
  | .many vs => c.discardAll vs
  | .one v => c.discardAll [v]
  | .self => discardSelf (c.inner.length + 1) 0 c

/-- `pop`, index_collections.py lines 106-110: `list.pop()`; an empty list raises IndexError (the
docstring says KeyError). Returns the popped value too. -/
def pop (c : IC) : IC × Except PyErr Val :=
  match c.inner.getLast? with
  | none => (c, .error .indexError)
  | some v => ({ c with inner := c.inner.dropLast }, .ok v)

/-- `clear`, interface.py lines 148-150; the element type stays. -/
def clear (c : IC) : IC := { c with inner := [] }

/-- The public mutating operations. `remove` (interface.py lines 144-146) is `discard`. -/
inductive Op where
  | add (v : Val)
  | discard (v : Val)
  | remove (v : Val)
  | update (a : Arg)
  | differenceUpdate (a : Arg)
  | pop
  | clear
  deriving Repr

/-- One public call; the object afterwards and whether the call raised. index_collections.py lines 106-209, interface.py lines 144-150. -/
def step (c : IC) : Op → Res
  | .add v => c.add v
  | .discard v => (c.discard v, none)
  | .remove v => (c.discard v, none)
  | .update a => c.update a
  | .differenceUpdate a => (c.differenceUpdate a, none)
  | .pop => match c.pop with
    | (c', .ok _) => (c', none)
    | (c', .error e) => (c', some e)
  | .clear => (c.clear, none)

/-- A program run: exceptions are caught by the caller, who goes on using the object. Calls of the methods of index_collections.py lines 106-209. -/
def run (c : IC) (ops : List Op) : IC := ops.foldl (fun c op => (c.step op).1) c

/-- What a user sees when listing the collection, up to `==`. index_collections.py lines 91-95, interface.py lines 128-130. -/
def keys (c : IC) : List Key := c.inner.map Val.key

end IC
end Alipy

namespace Alipy
namespace IC

/-- All collections a program can ever hold: constructed (index_collections.py lines 65-88) and then
changed by any public calls, whether they raised or not. -/
inductive Reachable : IC → Prop where
  | empty : Reachable IC.empty
  | construct (data : List Val) : Reachable (mk' data)
  | copy {c : IC} : Reachable c → Reachable c.copy
  | step {c : IC} (op : Op) : Reachable c → Reachable (c.step op).1

end IC
end Alipy

import Mathlib.Data.List.Basic

/-!
# The objects that `State` and `StateIO` share with the program that uses them

`alipy/experiment/state.py` and `alipy/experiment/state_io.py`, with a heap of mutable Python objects: which of the objects that go in and out
are copied (`copy.deepcopy`), copied at the top only (`copy.copy`), or shared. Lists, arrays, dictionaries, collections and `State` objects are
all cells here, that is sequences of values; what the values mean is the matter of the other models (`Model/State.lean`).
-/
namespace Alipy.Alias

/-- A Python value: immutable (a number, a string, a tuple of those), or a reference to a mutable object. What the attributes of state.py lines 47-52 and state_io.py lines 94-113 refer to. -/
inductive PV where
  | atom (a : Int)
  | ref (r : Nat)
deriving DecidableEq

/-- The heap: the contents of the objects `0 .. next - 1`. Python's memory, which state.py lines 47-52 and state_io.py lines 95-108 allocate in. -/
structure Heap where
  next : Nat
  cell : Nat → List PV

/-- A new object. As in state.py line 46. -/
def Heap.alloc (h : Heap) (slots : List PV) : Heap × PV :=
  (⟨h.next + 1, fun r => if r = h.next then slots else h.cell r⟩, .ref h.next)

/-- Overwriting an object in place. What a program may do with an object it has got, for instance from state.py line 98. -/
def Heap.write (h : Heap) (r : Nat) (slots : List PV) : Heap := ⟨h.next, fun q => if q = r then slots else h.cell q⟩

/-- The reference to the copy of an object. For `copy.deepcopy`, state.py line 47. -/
def shift (k : Nat) : PV → PV
  | .atom a => .atom a
  | .ref r => .ref (r + k)

/-- `copy.deepcopy(v)`: a copy of everything that can be reached from `v`, with the references among the copied objects following the copies.
Simplified: the whole heap is copied; copies of objects that cannot be reached from `v` cannot be reached from the result either and are
garbage. state.py lines 47, 50, 76, 113; state_io.py lines 98-99, 177, 202. -/
def Heap.deepcopy (h : Heap) (v : PV) : Heap × PV :=
  (⟨h.next + h.next, fun r => if r < h.next then h.cell r else (h.cell (r - h.next)).map (shift h.next)⟩, shift h.next v)

/-- `copy.copy(v)`: a new object with the same slots; an immutable value is its own copy. state.py lines 48, 52; state_io.py lines 95-96. -/
def Heap.copy (h : Heap) : PV → Heap × PV
  | .atom a => (h, .atom a)
  | .ref r => h.alloc (h.cell r)

/-- `State.__init__`, state.py lines 42-53, with all four arguments given: the slots `select_index` (deep copy), `performance` (copy),
`queried_label` (deep copy), `cost` (copy). The dictionary keys and the wrapping of a single index are left out, see `Model/State.lean`. -/
def newState (h : Heap) (sel perf lab cost : PV) : Heap × PV :=
  let (h1, v1) := h.deepcopy sel
  let (h2, v2) := h1.copy perf
  let (h3, v3) := h2.deepcopy lab
  let (h4, v4) := h3.copy cost
  h4.alloc [v1, v2, v3, v4]

/-- `State.add_element` and `set_value`, state.py lines 65-76, 100-113: slot `i` becomes a deep copy of `v`. -/
def setValue (h : Heap) (st : Nat) (i : Nat) (v : PV) : Heap :=
  let (h1, v1) := h.deepcopy v
  h1.write st ((h1.cell st).set i v1)

/-- `State.get_value`, state.py lines 96-98: the object itself. -/
def getValue (h : Heap) (st : Nat) (i : Nat) : Option PV := (h.cell st)[i]?

/-- The program and its saver: the heap, the variables of the program, and the attributes of the `StateIO` object. state_io.py lines 94-113. -/
structure Sys where
  heap : Heap
  vars : List PV
  train : PV
  initU : PV
  initL : PV
  initial : PV
  states : List PV

/-- `StateIO.__init__`, state_io.py lines 95-113, for collections: `train_idx` (and `test_idx`, left out) copied, `init_U` and `init_L` deep
copied, `initial_point` kept. The program goes on with its variables. -/
def start (h : Heap) (vars : List PV) (train initU initL initial : PV) : Sys :=
  let (h1, t) := h.copy train
  let (h2, u) := h1.deepcopy initU
  let (h3, l) := h2.deepcopy initL
  ⟨h3, vars, t, u, l, initial, []⟩

/-- The program makes a new object. For instance the indexes it passes to `State`, state.py line 42. -/
def Sys.make (s : Sys) (slots : List PV) : Sys :=
  let (h, v) := s.heap.alloc slots
  { s with heap := h, vars := v :: s.vars }

/-- The program changes an object in place. For instance an array of indexes it has passed to `State`, state.py line 42. -/
def Sys.write (s : Sys) (r : Nat) (slots : List PV) : Sys := { s with heap := s.heap.write r slots }

/-- The program makes a `State`. state.py line 42. -/
def Sys.newState (s : Sys) (sel perf lab cost : PV) : Sys :=
  let (h, v) := Alias.newState s.heap sel perf lab cost
  { s with heap := h, vars := v :: s.vars }

/-- The program changes an entry of a `State` that it has (`set_value`, `add_element`). state.py lines 65-76 and 100-113. -/
def Sys.setValue (s : Sys) (st i : Nat) (v : PV) : Sys := { s with heap := Alias.setValue s.heap st i v }

/-- `StateIO.add_state`, state_io.py line 177: a deep copy is appended. -/
def Sys.addState (s : Sys) (v : PV) : Sys :=
  let (h, w) := s.heap.deepcopy v
  { s with heap := h, states := s.states ++ [w] }

/-- `StateIO.get_state`, lines 201-202: a deep copy is handed out. -/
def Sys.getState (s : Sys) (i : Nat) : Option (Sys × PV) :=
  match s.states[i]? with
  | none => none
  | some v =>
    let (h, w) := s.heap.deepcopy v
    some ({ s with heap := h, vars := w :: s.vars }, w)

/-- `StateIO.__getitem__` (and the items of `__iter__`), state_io.py lines 325-332: the recorded object itself is handed out. -/
def Sys.getItem (s : Sys) (i : Nat) : Option (Sys × PV) :=
  match s.states[i]? with
  | none => none
  | some v => some ({ s with vars := v :: s.vars }, v)

/-- `StateIO.pop(i)`, line 222: the recorded object is handed out, and is no longer recorded. -/
def Sys.pop (s : Sys) (i : Nat) : Option (Sys × PV) :=
  match s.states[i]? with
  | none => none
  | some v => some ({ s with vars := v :: s.vars, states := s.states.eraseIdx i }, v)

/-- `StateIO.get_workspace`, lines 285-294: a copy of `train_idx`, and a new collection whose entries `idx` (indexes, which are immutable) are
calculated from deep copies. What they are is the matter of C16; here they are arbitrary. -/
def Sys.workspace (s : Sys) (idx : List Int) : Sys :=
  let (h1, t) := s.heap.copy s.train
  let (h2, w) := h1.alloc (idx.map .atom)
  { s with heap := h2, vars := t :: w :: s.vars }

/-- `StateIO.recover_workspace(k)`, lines 249-259: the states from `k` on are dropped; otherwise as `get_workspace`. -/
def Sys.recover (s : Sys) (k : Nat) (idx : List Int) : Sys := { s with states := s.states.take k }.workspace idx

/-- `StateIO.set_initial_point`, line 155: the object is kept as it is. -/
def Sys.setInitial (s : Sys) (v : PV) : Sys := { s with initial := v }

end Alipy.Alias

import Verif.Model.MultiLabel
import Mathlib.Data.Rat.Floor
import Mathlib.Algebra.Order.Field.Rat

/-!
# Model of `alipy/experiment/state.py` and `alipy/experiment/state_io.py`

The index containers are abstracted by their four operations (`CollOps`); `icOps` and `mlOps` are the two instances used
by the library, made of the models of `IndexCollection` and `MultiLabelIndexCollection`. Numbers are rationals.
Printing, pickling and the fields `round`, `train_idx`, `test_idx`, `initial_point` (stored and handed back unchanged)
are left out; `deepcopy` disappears because model values are immutable.
-/
namespace Alipy

/-- What `State` and `StateIO` use of index containers: `κ` the containers, `ε` a single index, `σ` a value of
`select_index` that is a list, array or container. state.py lines 43-44, 53; state_io.py lines 256-257, 360. -/
structure CollOps (κ ε σ : Type) where
  /-- `[x]`, state.py line 44 -/
  single : ε → σ
  /-- `len(select_index)` -/
  selLen : σ → Nat
  /-- `container.update(select_index)` -/
  update : κ → σ → κ × Option PyErr
  /-- `container.difference_update(select_index)` -/
  diff : κ → σ → κ × Option PyErr
  /-- `len(container)` -/
  len : κ → Nat

/-- `IndexCollection` (index_collections.py lines 184-188, 205-209); a `select_index` that is itself a collection is the
list of its elements. -/
def icOps : CollOps IC Val (List Val) where
  single v := [v]
  selLen := List.length
  update c vs := c.update (.many vs)
  diff c vs := (c.differenceUpdate (.many vs), none)
  len c := c.inner.length

/-- `MultiLabelIndexCollection` (index_collections.py lines 378-430); `select_index` is a list or a collection. -/
def mlOps : CollOps MLIC Item (List Item ⊕ MLIC) where
  single ix := .inl [ix]
  selLen s := match s with
    | .inl l => l.length
    | .inr c => c.inner.length
  update c s := match s with
    | .inl l => c.update (.list l)
    | .inr d => c.update (.coll d)
  diff c s := match s with
    | .inl l => c.differenceUpdate (.list l)
    | .inr d => c.differenceUpdate (.coll d)
  len c := c.inner.length

/-- The values kept in a `State`: something usable as `select_index`, a number or array of numbers, any other object. state.py lines 47-52. -/
inductive Obj (σ : Type) where
  | sel (s : σ)
  | arr (xs : List ℚ)
  | other (n : Nat)
  deriving DecidableEq, Repr

/-- `State`: `_save_seq` (a dict) and `batch_size`. state.py lines 42-53. -/
structure State (σ : Type) where
  entries : List (String × Obj σ)
  batch : Nat
  deriving DecidableEq, Repr

namespace State
variable {κ ε σ : Type}

/-- Python's `dict.pop(key)` for a present key. state.py line 94. -/
def dictErase (k : String) : List (String × Obj σ) → List (String × Obj σ)
  | [] => []
  | (k', v') :: r => if k' = k then r else (k', v') :: dictErase k r

/-- `State(select_index, performance, queried_label, cost)`, state.py lines 42-53. -/
def new (ops : CollOps κ ε σ) (select : ε ⊕ σ) (perf : Obj σ) (label cost : Option (Obj σ)) : State σ :=
  let s := match select with
    | .inl x => ops.single x
    | .inr s => s
  let d := [("select_index", .sel s)]
  let d := dictSet "performance" perf d
  let d := match label with
    | none => d
    | some l => dictSet "queried_label" l d
  let d := match cost with
    | none => d
    | some c => dictSet "cost" c d
  ⟨d, ops.selLen s⟩

/-- `keys`, state.py lines 61-63. -/
def keys (s : State σ) : List String := s.entries.map Prod.fst

/-- `add_element` (and `s[key] = value`), state.py lines 58-59, 65-76. -/
def addElement (s : State σ) (k : String) (v : Obj σ) : State σ := { s with entries := dictSet k v s.entries }

/-- `del_element`, state.py lines 78-94. The two warnings are not modelled. -/
def delElement (s : State σ) (k : String) : State σ :=
  if k ∈ ["select_index", "queried_info", "performance", "cost"] then s
  else if k ∉ s.keys then s
  else { s with entries := dictErase k s.entries }

/-- `get_value` (and `s[key]`), state.py lines 55-56, 96-98. -/
def getValue (s : State σ) (k : String) : Except PyErr (Obj σ) :=
  match dictGet k s.entries with
  | none => .error .keyError
  | some v => .ok v

/-- `set_value`, state.py lines 100-113. -/
def setValue (s : State σ) (k : String) (v : Obj σ) : State σ × Option PyErr :=
  if k ∉ s.keys then (s, some .keyError) else ({ s with entries := dictSet k v s.entries }, none)

/-- The public calls that change a state. state.py lines 58-59, 65-76, 78-94, 100-113. -/
inductive Op (σ : Type) where
  | add (k : String) (v : Obj σ)
  | del (k : String)
  | set (k : String) (v : Obj σ)

def step (s : State σ) : Op σ → State σ × Option PyErr
  | .add k v => (s.addElement k v, none)
  | .del k => (s.delElement k, none)
  | .set k v => s.setValue k v

/-- A program using the state, going on after exceptions. Calls of the methods of state.py lines 58-113. -/
def run (s : State σ) (ops : List (Op σ)) : State σ := ops.foldl (fun s op => (s.step op).1) s

end State

/-- An element of the state list: `add_state` also accepts a dict (state_io.py lines 174-176), which has neither
`get_value` nor `batch_size`. -/
inductive Entry (σ : Type) where
  | st (s : State σ)
  | dict (d : List (String × Obj σ))
  deriving DecidableEq, Repr

/-- `StateIO`: the fields that the modelled methods use. state_io.py lines 94-118. -/
structure StateIO (κ σ : Type) where
  initL : κ
  initU : κ
  states : List (Entry σ)
  cost : ℚ
  numq : Nat
  batch : Nat
  deriving DecidableEq, Repr

namespace StateIO
variable {κ ε σ : Type}

/-- `StateIO(...)`, state_io.py lines 79-126, for initial sets that are already collections of one kind (line 98-100). -/
def new (initL initU : κ) : StateIO κ σ := ⟨initL, initU, [], 0, 0, 0⟩

/-- `state.get_value(key)` on an element of the list; a dict has no such attribute. state_io.py lines 256-257, 339, 341. -/
def entryGet (e : Entry σ) (k : String) : Except PyErr (Obj σ) :=
  match e with
  | .st s => s.getValue k
  | .dict _ => .error .attributeError

/-- `key in state.keys()`. state_io.py lines 340, 349. -/
def entryHas (e : Entry σ) (k : String) : Bool :=
  match e with
  | .st s => decide (k ∈ s.keys)
  | .dict d => decide (k ∈ d.map Prod.fst)

/-- `np.sum(state.get_value('cost'))` if there is a cost, else 0 (state_io.py lines 340-341, 349-350). A non-numeric cost
makes the addition fail. -/
def entryCost (e : Entry σ) : Except PyErr ℚ :=
  if entryHas e "cost" then
    match entryGet e "cost" with
    | .error err => .error err
    | .ok (.arr xs) => .ok xs.sum
    | .ok _ => .error .typeError
  else .ok 0

/-- `len(state.get_value('select_index'))`. state_io.py lines 339, 351. -/
def entryLen (ops : CollOps κ ε σ) (e : Entry σ) : Except PyErr Nat :=
  match entryGet e "select_index" with
  | .error err => .error err
  | .ok (.sel s) => .ok (ops.selLen s)
  | .ok (.arr xs) => .ok xs.length
  | .ok (.other _) => .error .typeError

/-- `add_state(state)`, state_io.py lines 165-178, with `__update_info`, lines 346-351. The state is appended before the
information is updated, and the cost before the number of queried data. -/
def addState (ops : CollOps κ ε σ) (s : StateIO κ σ) (e : Entry σ) : StateIO κ σ × Option PyErr :=
  let ok : Bool := match e with
    | .st _ => true
    | .dict d => ["select_index", "queried_info", "performance"].all (fun k => decide (k ∈ d.map Prod.fst))
  if !ok then (s, some .assertionError)
  else
    let s := { s with states := s.states ++ [e] }
    match entryCost e with
    | .error err => (s, some err)
    | .ok c =>
      let s := { s with cost := s.cost + c }
      match entryLen ops e with
      | .error err => (s, some err)
      | .ok n => ({ s with numq := s.numq + n }, none)

/-- The loop of `get_workspace` / `recover_workspace`, state_io.py lines 254-257 and 290-293. A `select_index` that is no
list, array or collection any more is not modelled further than: it fails. -/
def replay (ops : CollOps κ ε σ) : List (Entry σ) → κ → κ → Except PyErr (κ × κ)
  | [], L, U => .ok (L, U)
  | e :: es, L, U =>
    match entryGet e "select_index" with
    | .error err => .error err
    | .ok (.sel s) =>
      match ops.diff U s with
      | (_, some err) => .error err
      | (U', none) =>
        match ops.update L s with
        | (_, some err) => .error err
        | (L', none) => replay ops es L' U'
    | .ok _ => .error .typeError

/-- `get_workspace(iteration)`, state_io.py lines 261-294: labelled and unlabelled set. It changes nothing. -/
def getWorkspace (ops : CollOps κ ε σ) (s : StateIO κ σ) (iteration : Option Int) : Except PyErr (κ × κ) :=
  let k := iteration.getD s.states.length
  if 0 ≤ k ∧ k ≤ s.states.length then replay ops (s.states.take k.toNat) s.initL s.initU
  else .error .assertionError

/-- `recover_workspace(iteration)`, state_io.py lines 224-259. -/
def recoverWorkspace (ops : CollOps κ ε σ) (s : StateIO κ σ) (iteration : Option Int) :
    StateIO κ σ × Except PyErr (κ × κ) :=
  let k := iteration.getD s.states.length
  if 0 ≤ k ∧ k ≤ s.states.length then
    match replay ops (s.states.take k.toNat) s.initL s.initU with
    | .error err => (s, .error err)
    | .ok w => ({ s with states := s.states.take k.toNat }, .ok w)
  else (s, .error .assertionError)

/-- The loop of `refresh_info`, state_io.py lines 338-341. -/
def totals (ops : CollOps κ ε σ) : List (Entry σ) → Except PyErr (Nat × ℚ)
  | [] => .ok (0, 0)
  | e :: es =>
    match entryLen ops e with
    | .error err => .error err
    | .ok n =>
      match entryCost e with
      | .error err => .error err
      | .ok c =>
        match totals ops es with
        | .error err => .error err
        | .ok (m, d) => .ok (n + m, c + d)

/-- `refresh_info`, state_io.py lines 334-344. -/
def refreshInfo (ops : CollOps κ ε σ) (s : StateIO κ σ) : StateIO κ σ × Option PyErr :=
  match totals ops s.states with
  | .error err => (s, some err)
  | .ok (n, c) => ({ s with numq := n, cost := c }, none)

/-- Batch sizes of the listed states; a dict has no `batch_size`. state_io.py line 213. -/
def batches : List (Entry σ) → Except PyErr (List Nat)
  | [] => .ok []
  | .dict _ :: _ => .error .attributeError
  | .st s :: es =>
    match batches es with
    | .error err => .error err
    | .ok l => .ok (s.batch :: l)

/-- `check_batch_size`, state_io.py lines 204-218: `range(len(self.__state_list) - 1)` leaves out the last state. -/
def checkBatchSize (s : StateIO κ σ) : StateIO κ σ × Except PyErr Bool :=
  match batches (s.states.take (s.states.length - 1)) with
  | .error err => (s, .error err)
  | .ok l =>
    match l.eraseDups with
    | [b] => ({ s with batch := b }, .ok true)
    | _ => (s, .ok false)

/-- `pop(i)`, state_io.py lines 220-222; `list.pop(None)` is a TypeError. -/
def pop (s : StateIO κ σ) (i : Option Int) : StateIO κ σ × Except PyErr (Entry σ) :=
  match i with
  | none => (s, .error .typeError)
  | some i =>
    let j := if i < 0 then i + s.states.length else i
    if 0 ≤ j then
      match s.states[j.toNat]? with
      | none => (s, .error .indexError)
      | some e => ({ s with states := s.states.eraseIdx j.toNat }, .ok e)
    else (s, .error .indexError)

/-- `get_state(i)`, state_io.py lines 188-202. -/
def getState (s : StateIO κ σ) (i : Int) : Except PyErr (Entry σ) :=
  if 0 ≤ i ∧ i < s.states.length then
    match s.states[i.toNat]? with
    | none => .error .indexError
    | some e => .ok e
  else .error .assertionError

/-- Changing a held state through `saver[i]` (state_io.py line 326 returns the object itself, no copy). -/
def mutate (s : StateIO κ σ) (i : Nat) (op : State.Op σ) : StateIO κ σ × Option PyErr :=
  match s.states[i]? with
  | none => (s, some .indexError)
  | some (.dict _) => (s, some .attributeError)
  | some (.st st) => ({ s with states := s.states.set i (.st (st.step op).1) }, (st.step op).2)

end StateIO
end Alipy

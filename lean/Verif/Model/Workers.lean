import Verif.Model.State
import Verif.Model.Threads

/-!
# What the workers of `aceThreading` are given

`alipy/utils/multi_thread.py` lines 65-179, 182-185 and 328-346: the sets a saver starts with, the arguments of the threads, the check of the
function to be run, and the threads running in any order. The sets are objects in memory, so that two rounds could share one. Scheduling
and files are the matter of `Model/Threads.lean`. The constructor of `StateIO`, `alipy/experiment/state_io.py` lines 97-108, is here for
the forms in which the sets may be passed.
-/
namespace Alipy.Workers

/-! ## The forms of the initial sets -/

/-- An element of a list of indexes: a number or a name, or a tuple. multi_label_tools.py lines 28-31. -/
inductive Elem where
  | val (v : Val)
  | tup (ix : Ix)

/-- The element as `check_index_multilabel` sees it. multi_label_tools.py lines 28-31. -/
def Elem.item : Elem → Item
  | .val _ => .other
  | .tup ix => .tup ix

/-- What is passed as `label_index[i]`, `unlabel_index[i]`, `init_L`, `init_U`: a collection or a list. multi_thread.py lines 89-95, state_io.py lines 97-101. -/
inductive Given where
  | ic (c : IC)
  | ml (c : MLIC)
  | list (l : List Elem)

/-- What a saver holds: an index collection, a collection of pairs, or an index collection of rows of an array (made of tuples).
multi_thread.py lines 90-101. -/
inductive Sets where
  | ic (c : IC)
  | ml (c : MLIC)
  | rows (r : List (List Int))

/-- All elements are numbers or names. index_collections.py line 75. -/
def vals : List Elem → Option (List Val)
  | [] => some []
  | .val v :: r => (vals r).map (v :: ·)
  | .tup _ :: _ => none

/-- A tuple of plain numbers as a row. index_collections.py line 75. -/
def row : Elem → Option (List Int)
  | .tup (.all e) => some [e]
  | .tup (.pair e (.scal l)) => some [e, l]
  | _ => none

/-- `IndexCollection(list)`, index_collections.py lines 65-88: for numbers and names as in `Model/IndexCollection.lean`; tuples of one
length make an array of two dimensions, whose distinct rows become the elements (the order of the rows is not modelled); anything
else makes an array of objects, which `np.unique` with an axis refuses. -/
def indexCollection (l : List Elem) : Except PyErr Sets :=
  match vals l with
  | some vs => .ok (.ic (IC.mk' vs))
  | none =>
    match l.mapM row with
    | none => .error .typeError
    | some rs => if rs.all (fun r => decide (r.length = (rs.headD []).length)) then .ok (.rows rs.dedup) else .error .typeError

/-- Both checks of multi_thread.py lines 94-95, state_io.py lines 102-103. -/
def bothPairs (l u : List Elem) : Except PyErr Unit :=
  match checkIndexMultilabel (l.map Elem.item) with
  | .error e => .error e
  | .ok _ =>
    match checkIndexMultilabel (u.map Elem.item) with
    | .error e => .error e
    | .ok _ => .ok ()

/-- `except TypeError:` with two index collections, multi_thread.py lines 99-101, state_io.py lines 106-108. -/
def plain (l u : List Elem) : Except PyErr (Sets × Sets) :=
  match indexCollection u with
  | .error e => .error e
  | .ok U =>
    match indexCollection l with
    | .error e => .error e
    | .ok L => .ok (L, U)

/-- Two collections of pairs, for lists, multi_thread.py lines 97-98, state_io.py lines 104-105. -/
def pairs (lsz : Option Int) (l u : List Elem) : Except PyErr (Sets × Sets) :=
  match MLIC.mk' (u.map Elem.item) lsz with
  | .error e => .error e
  | .ok U =>
    match MLIC.mk' (l.map Elem.item) lsz with
    | .error e => .error e
    | .ok L => .ok (.ml L, .ml U)

/-- The sets of a round in `aceThreading.__init__`, multi_thread.py lines 88-101: labelled, unlabelled. `cols` is the number of columns of a label
matrix, `none` for labels of one dimension. A collection together with a list is not modelled: `notImplementedError` here. -/
def threadSets (cols : Option Nat) : Given → Given → Except PyErr (Sets × Sets)
  | .ic c, .ic d => .ok (.ic c, .ic d)
  | .ml c, .ml d => .ok (.ml c, .ml d)
  | .ic c, .ml d => .ok (.ic c, .ml d)
  | .ml c, .ic d => .ok (.ml c, .ic d)
  | .list l, .list u =>
    match bothPairs l u with
    | .error .typeError => plain l u
    | .error e => .error e
    | .ok _ =>
      match cols with
      | none => .error .assertionError
      | some m =>
        match pairs (some (m : Int)) l u with
        | .error .typeError => plain l u
        | r => r
  | _, _ => .error .notImplementedError

/-- The sets of a saver in `StateIO.__init__`, state_io.py lines 97-108: the number of labels is not known and inferred from each list. -/
def stateIOSets : Given → Given → Except PyErr (Sets × Sets)
  | .ic c, .ic d => .ok (.ic c, .ic d)
  | .ml c, .ml d => .ok (.ml c, .ml d)
  | .ic c, .ml d => .ok (.ic c, .ml d)
  | .ml c, .ic d => .ok (.ml c, .ic d)
  | .list l, .list u =>
    match bothPairs l u with
    | .error .typeError => plain l u
    | .error e => .error e
    | .ok _ =>
      match pairs none l u with
      | .error .typeError => plain l u
      | r => r
  | _, _ => .error .notImplementedError

/-! ## The objects in memory -/

variable {κ ε σ τ ρ : Type}

/-- The collections in memory, by address; addresses from `next` on are free. For multi_thread.py lines 71-72 and 90-91. -/
structure Heap (κ : Type) where
  next : Nat
  cell : Nat → κ

/-- A new object. `copy.deepcopy` of a collection, multi_thread.py lines 90-91, state_io.py lines 98-99, 288-289. -/
def Heap.alloc (h : Heap κ) (x : κ) : Heap κ × Nat := (⟨h.next + 1, Threads.set h.cell h.next x⟩, h.next)

/-- Changing an object in place. What a worker does with `Ucollection.difference_update`, multi_thread.py line 176. -/
def Heap.write (h : Heap κ) (r : Nat) (x : κ) : Heap κ := ⟨h.next, Threads.set h.cell r x⟩

/-- A saver with the sets its addresses refer to. state_io.py lines 98-99. -/
def look (h : Heap κ) (s : StateIO Nat σ) : StateIO κ σ :=
  ⟨h.cell s.initL, h.cell s.initU, s.states, s.cost, s.numq, s.batch⟩

/-- The saver of a round for collections at the addresses `l` and `u`: copied in multi_thread.py lines 90-91, and again in state_io.py lines 98-99. -/
def newSaver (h : Heap κ) (l u : Nat) : Heap κ × StateIO Nat σ :=
  let (h1, u1) := h.alloc (h.cell u)
  let (h2, l1) := h1.alloc (h1.cell l)
  let (h3, u2) := h2.alloc (h2.cell u1)
  let (h4, l2) := h3.alloc (h3.cell l1)
  (h4, StateIO.new l2 u2)

/-- The loop over the rounds, multi_thread.py lines 88-104. -/
def newSavers (h : Heap κ) : List (Nat × Nat) → Heap κ × List (StateIO Nat σ)
  | [] => (h, [])
  | (l, u) :: r =>
    let (h1, s) := newSaver h l u
    let (h2, ss) := newSavers h1 r
    (h2, s :: ss)

/-- A saver read from a file: new objects. multi_thread.py lines 333-334, 345-346. -/
def loaded (h : Heap κ) (v : StateIO κ σ) : Heap κ × StateIO Nat σ :=
  let (h1, l) := h.alloc v.initL
  let (h2, u) := h1.alloc v.initU
  (h2, ⟨l, u, v.states, v.cost, v.numq, v.batch⟩)

/-- The savers that `recover` replaces by those of the files, multi_thread.py lines 328-346; `none` for a round without file. -/
def recoverSavers (h : Heap κ) : List (StateIO Nat σ) → List (Option (StateIO κ σ)) → Heap κ × List (StateIO Nat σ)
  | s :: ss, none :: fs =>
    let (h1, r) := recoverSavers h ss fs
    (h1, s :: r)
  | _ :: ss, some v :: fs =>
    let (h1, s) := loaded h v
    let (h2, r) := recoverSavers h1 ss fs
    (h2, s :: r)
  | ss, _ => (h, ss)

/-- The arguments of a thread, multi_thread.py lines 174-178; `examples`, `labels` and `global_parameters` are the same for all. -/
structure Task (σ τ : Type) where
  round : Nat
  train : τ
  test : τ
  U : Nat
  L : Nat
  saver : StateIO Nat σ

/-- One thread, multi_thread.py lines 173-179: `get_workspace` is called for the unlabelled set and again for the labelled set, and each call makes
new collections (state_io.py lines 288-294). -/
def task (ops : CollOps κ ε σ) (h : Heap κ) (i : Nat) (train test : τ) (s : StateIO Nat σ) : Except PyErr (Heap κ × Task σ τ) :=
  match StateIO.getWorkspace ops (look h s) none with
  | .error e => .error e
  | .ok w =>
    let (h1, u) := h.alloc w.2
    match StateIO.getWorkspace ops (look h1 s) none with
    | .error e => .error e
    | .ok w' =>
      let (h2, l) := h1.alloc w'.1
      .ok (h2, ⟨i, train, test, u, l, s⟩)

/-- `__init_threads`, multi_thread.py lines 173-179, from round `i` on. -/
def tasks (ops : CollOps κ ε σ) (h : Heap κ) : Nat → List τ → List τ → List (StateIO Nat σ) → Except PyErr (Heap κ × List (Task σ τ))
  | i, tr :: trs, te :: tes, s :: ss =>
    match task ops h i tr te s with
    | .error e => .error e
    | .ok (h1, t) =>
      match tasks ops h1 (i + 1) trs tes ss with
      | .error e => .error e
      | .ok (h2, ts) => .ok (h2, t :: ts)
  | _, _, _, _ => .ok (h, [])

/-- What a worker can see and change: its own variables, the two sets, the saver. The function to be run is a program of the user; one step of it is
any function of these. Simplified: the examples, the labels and the global parameters, which all workers share, are not changed. multi_thread.py lines 174-178. -/
structure View (ρ κ σ : Type) where
  own : ρ
  U : κ
  L : κ
  saver : StateIO κ σ

/-- The memory while the threads run: the sets, the savers and the variables of the workers, by round. multi_thread.py lines 173-179. -/
structure Sys (ρ κ σ : Type) where
  heap : Heap κ
  saver : Nat → StateIO Nat σ
  own : Nat → ρ

/-- What the worker of a task sees. multi_thread.py lines 174-178. -/
def Sys.view (s : Sys ρ κ σ) (t : Task σ τ) : View ρ κ σ :=
  ⟨s.own t.round, s.heap.cell t.U, s.heap.cell t.L, look s.heap (s.saver t.round)⟩

/-- The worker of a task stores what it has changed: the sets, the sets inside its saver, and the record. multi_thread.py lines 174-178. -/
def Sys.store (s : Sys ρ κ σ) (t : Task σ τ) (v : View ρ κ σ) : Sys ρ κ σ :=
  let q := s.saver t.round
  ⟨(((s.heap.write t.U v.U).write t.L v.L).write q.initU v.saver.initU).write q.initL v.saver.initL,
    Threads.set s.saver t.round ⟨q.initL, q.initU, v.saver.states, v.saver.cost, v.saver.numq, v.saver.batch⟩,
    Threads.set s.own t.round v.own⟩

/-- What happens next: a step of the worker of round `i`, or the program of the user changes one of its own objects. multi_thread.py lines 188-228. -/
inductive Ev (κ : Type) where
  | work (i : Nat)
  | user (r : Nat) (x : κ)

/-- One event. Threads are preempted between the steps of the workers, in any way. multi_thread.py lines 188-228. -/
def Sys.exec (step : Nat → View ρ κ σ → View ρ κ σ) (ts : List (Task σ τ)) (s : Sys ρ κ σ) : Ev κ → Sys ρ κ σ
  | .work i =>
    match ts[i]? with
    | none => s
    | some t => s.store t (step i (s.view t))
  | .user r x => { s with heap := s.heap.write r x }

/-- Any sequence of events. multi_thread.py lines 188-228. -/
def Sys.run (step : Nat → View ρ κ σ → View ρ κ σ) (ts : List (Task σ τ)) (s : Sys ρ κ σ) (evs : List (Ev κ)) : Sys ρ κ σ :=
  evs.foldl (Sys.exec step ts) s

/-- The memory when the threads start. multi_thread.py lines 163-165. -/
def Sys.init (h : Heap κ) (savers : List (StateIO Nat σ)) (dflt : StateIO Nat σ) (own : Nat → ρ) : Sys ρ κ σ := ⟨h, fun i => savers.getD i dflt, own⟩

/-! ## The function to be run -/

/-- The names that the function has to have. multi_thread.py lines 135-136. -/
def names : List String := ["round", "train_id", "test_id", "Ucollection", "Lcollection", "saver", "examples", "labels", "global_parameters"]

/-- The signature of a Python function: the parameters before `*`, those after it, which of them have no default, and whether there is `**kwargs`. multi_thread.py line 134. -/
structure Sig where
  args : List String
  kwonly : List String
  required : List String
  varkw : Bool

/-- `set_target_function`, multi_thread.py lines 134-141: whether the function is accepted, `NameError` otherwise. -/
def accepts (f : Sig) : Bool := names.all (fun n => decide (n ∈ f.args))

/-- Python's rule for a call with the keyword arguments `names`, as in multi_thread.py lines 174-178. -/
def callable (f : Sig) : Bool :=
  (f.varkw || names.all (fun n => decide (n ∈ f.args ++ f.kwonly))) && f.required.all (fun n => decide (n ∈ names))

/-! ## Starting -/

/-- The threads of the object: whether they have been started. multi_thread.py line 85. -/
abbrev Thr := List Bool

/-- The loop that starts the threads, multi_thread.py lines 188-214, without the waiting; a thread that has been started before raises `RuntimeError` (`none`). -/
def startLoop (todo : Nat → Bool) : List Nat → Thr → Option Thr
  | [], ts => some ts
  | i :: is, ts =>
    if !todo i then startLoop todo is ts
    else if ts.getD i true then none
    else startLoop todo is (ts.set i true)

/-- `start_all_threads`, multi_thread.py lines 143-165, for `n` rounds: new threads are appended to the list, and those at `0 .. n-1` are started. -/
def startAll (n : Nat) (todo : Nat → Bool) (ts : Thr) : Option Thr :=
  startLoop todo (List.range n) (ts ++ List.replicate n false)

end Alipy.Workers

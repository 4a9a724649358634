import Verif.Model.Stopping
/-!
# Model of a session that saves its record, and is broken off and resumed

The loop of `/repo/examples/AL_settings/query_instance.py` lines 23-61: select, move the indexes, record a state, `saver.save()`, tell the
stopping criterion. The process may be killed at any moment. It is started again by the same script, which loads the saver
if its file exists and takes the workspace from it, as in `/repo/examples/tools/StateIO_usage.py` lines 49-50. (As long as the file does not
exist, the script starts from the split, which is itself saved, C35 and C82.) The containers are abstracted as in `Verif/Model/State.lean`.
Writing a file: opening it for writing empties it, closing it makes the content complete. Loading a complete file gives the object that was
saved; loading an incomplete one fails.
-/
namespace Alipy.Resume
open Alipy

variable {κ ε σ : Type}

/-- What does not change during a session: the containers, the strategy, what the queries cost and what is recorded as performance,
the initial sets and the stopping criterion. query_instance.py lines 11-20. -/
structure Env (κ ε σ : Type) where
  ops : CollOps κ ε σ
  strat : κ → κ → Except PyErr σ
  cost : σ → Option (List ℚ)
  perf : κ → κ → Obj σ
  initL : κ
  initU : κ
  name : Option String
  value : Option PyNum

/-- The objects in memory. query_instance.py lines 25-27. -/
structure Mem (κ σ : Type) where
  L : κ
  U : κ
  saver : StateIO κ σ
  stop : Stop

/-- The file of the saver. state_io.py lines 157-163. -/
inductive File (κ σ : Type) where
  | missing
  | broken
  | full (s : StateIO κ σ)

/-- Where the process is: not running, at the head of the loop, after `add_state`, within `save` (file opened, not yet closed), after the
loop, or ended by an exception. query_instance.py lines 38-60. -/
inductive Proc (κ σ : Type) where
  | down
  | head (m : Mem κ σ)
  | queried (m : Mem κ σ)
  | writing (m : Mem κ σ)
  | done (m : Mem κ σ)
  | failed (e : PyErr)

/-- The process, the file, and all queries that the oracle has answered so far; `crashes` counts the interruptions. query_instance.py lines 23-61 and state_io.py lines 157-163. -/
structure Sys (κ σ : Type) where
  proc : Proc κ σ
  disk : File κ σ
  asked : List σ
  crashes : Nat

/-- query_instance.py lines 41-54: select, update both sets, record the state. Also returned: what was selected. -/
def query (env : Env κ ε σ) (m : Mem κ σ) : Except PyErr (Mem κ σ × σ) :=
  match env.strat m.L m.U with
  | .error e => .error e
  | .ok sel =>
    match env.ops.update m.L sel with
    | (_, some e) => .error e
    | (L', none) =>
      match env.ops.diff m.U sel with
      | (_, some e) => .error e
      | (U', none) =>
        match m.saver.addState env.ops (.st (State.new env.ops (.inr sel) (env.perf L' U') none ((env.cost sel).map Obj.arr))) with
        | (_, some e) => .error e
        | (saver', none) => .ok (⟨L', U', saver', m.stop⟩, sel)

/-- The script at its start, at time `now`: query_instance.py lines 20 and 25-27, or StateIO_usage.py lines 49-50 and
`stopping_criterion.update_information(saver)`. `StateIO.load`: state_io.py lines 128-145. -/
def launch (env : Env κ ε σ) (disk : File κ σ) (now : ℚ) : Except PyErr (Mem κ σ) :=
  match Stop.new env.name env.value now with
  | .error e => .error e
  | .ok stop =>
    match disk with
    | .missing => .ok ⟨env.initL, env.initU, StateIO.new env.initL env.initU, stop⟩
    | .broken => .error .unpicklingError
    | .full saver =>
      match StateIO.getWorkspace env.ops saver none with
      | .error e => .error e
      | .ok (L, U) =>
        match stop.update env.ops saver with
        | .error e => .error e
        | .ok stop' => .ok ⟨L, U, saver, stop'⟩

/-- One step of the process at time `now`; `save`: state_io.py lines 157-163 (`open(..., 'wb')`; `pickle.dump` and `f.close()`). A script that
has ended is started again. -/
def tick (env : Env κ ε σ) (s : Sys κ σ) (now : ℚ) : Sys κ σ :=
  match s.proc with
  | .down =>
    match launch env s.disk now with
    | .error e => { s with proc := .failed e }
    | .ok m => { s with proc := .head m }
  | .head m =>
    match m.stop.isStop now with
    | .error e => { s with proc := .failed e }
    | .ok true => { s with proc := .done m }
    | .ok false =>
      match query env m with
      | .error e => { s with proc := .failed e }
      | .ok (m', sel) => { s with proc := .queried m', asked := s.asked ++ [sel] }
  | .queried m => { s with proc := .writing m, disk := .broken }
  | .writing m =>
    match m.stop.update env.ops m.saver with
    | .error e => { s with proc := .failed e, disk := .full m.saver }
    | .ok stop' => { s with proc := .head { m with stop := stop' }, disk := .full m.saver }
  | .done m => { s with proc := .done m }
  | .failed e => { s with proc := .failed e }

/-- What happens: the process goes on (at some time), or it is killed. query_instance.py line 38. -/
inductive Event where
  | tick (now : ℚ)
  | crash

def step (env : Env κ ε σ) (s : Sys κ σ) : Event → Sys κ σ
  | .tick now => tick env s now
  | .crash => { s with proc := .down, crashes := s.crashes + 1 }

/-- Everything that happens, from the first start on. query_instance.py lines 23-61. -/
def run (env : Env κ ε σ) (events : List Event) : Sys κ σ := events.foldl (step env) ⟨.down, .missing, [], 0⟩

end Alipy.Resume

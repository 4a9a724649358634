import Verif.Model.Py
/-!
# `aceThreading`: `alipy/utils/multi_thread.py`

The main thread, the worker threads, the result files of the workers (`AL_round_<i>.pkl`) and the breakpoint file
(`multi_thread_state.pkl`) as a transition system. Worker code is arbitrary: it may add states to its saver, save, end or (if `die` is
allowed) raise at any time. Printing and times are not modelled. Pickling of the `aceThreading` object is one step, of which only the
flags `__alive_thread` matter to `recover`.
-/
namespace Alipy.Threads
open Alipy

/-- A worker thread: not started, running, or ended. multi_thread.py:174-179, 192, 257. -/
inductive W where
  | idle | running | ended
  deriving DecidableEq, Repr

/-- A result file: absent; opened for writing (truncated, size 0); partly written; or holding a saver with `k` states. multi_thread.py:331-333 and 340. -/
inductive File where
  | missing | empty | torn | data (k : Nat)
  deriving DecidableEq, Repr

/-- The breakpoint file: absent; opened for writing; or holding the flags `__alive_thread`. multi_thread.py:287-298. -/
inductive Disk where
  | missing | torn | snap (flags : Nat → Bool)

/-- Where the main thread is. `loop i`: head of the for loop, multi_thread.py:188; `wait i`: line 203; `upd j i`, `opn j i`, `dump j i`:
the three steps of `_update_thread_state(); save()` in the start loop (`j = false`) or in the join loop (`j = true`), to be followed by
round `i`; `join i`: line 224; `raised`: `Thread.start` has raised `RuntimeError`. -/
inductive PC where
  | loop (i : Nat) | wait (i : Nat) | upd (j : Bool) (i : Nat) | opn (j : Bool) (i : Nat) | dump (j : Bool) (i : Nat)
  | join (i : Nat) | done | raised
  deriving DecidableEq, Repr

/-- The whole system. `prog i` is the number of states in the saver of round `i`. multi_thread.py:85-116. -/
structure Sys where
  pc : PC
  w : Nat → W
  avail : Int
  flags : Nat → Bool
  files : Nat → File
  prog : Nat → Nat
  disk : Disk

/-- Parameters: the number of rounds, `max_thread`, `_recover_arr`. multi_thread.py:75, 84 and 106-110. -/
structure Par where
  n : Nat
  max : Nat
  todo : Nat → Bool

/-- `f` with the value at `i` replaced. multi_thread.py:194 and 258. -/
def set {α : Type} (f : Nat → α) (i : Nat) (x : α) : Nat → α := fun j => if j = i then x else f j

/-- The number of running workers. multi_thread.py:207. -/
def Sys.alive (p : Par) (s : Sys) : Nat := (List.range p.n).countP (fun i => decide (s.w i = .running))

/-- The state after construction (multi_thread.py:65-120) and entering `__start_all_threads` (181-187). `files` are the files found. -/
def init (p : Par) (files : Nat → File) (disk : Disk) : Sys :=
  { pc := .loop 0, w := fun _ => .idle, avail := p.max, flags := fun _ => false, files := files, prog := fun _ => 0, disk := disk }

/-- `self.__threads[i].start()` and the two assignments after it, multi_thread.py:192-195 and 211-214. -/
def start (s : Sys) (i : Nat) (avail : Int) : Sys :=
  match s.w i with
  | .idle => { s with w := set s.w i .running, flags := set s.flags i true, avail := avail - 1, pc := .upd false (i + 1) }
  | _ => { s with pc := .raised }

/-- Where to continue after saving. multi_thread.py:188 and 221. -/
def next (j : Bool) (i : Nat) : PC := if j then .join i else .loop i

/-- One step of the main thread, multi_thread.py:188-229; `other` is the number of threads of the process besides the main thread and the
workers at the moment of `threading.active_count()`. -/
def mainStep (p : Par) (other : Nat) (s : Sys) : Sys :=
  match s.pc with
  | .loop i =>
    if i < p.n then
      if p.todo i then (if 0 < s.avail then start s i s.avail else { s with pc := .wait i })
      else { s with pc := .loop (i + 1) }
    else { s with pc := .join 0 }
  | .wait i =>
    let active := 1 + s.alive p + other
    if (active : Int) - 1 < p.max then start s i (s.avail + (p.max - active + 1)) else s
  | .upd j i => { s with flags := fun k => decide (s.w k = .running), pc := .opn j i }
  | .opn j i => { s with disk := .torn, pc := .dump j i }
  | .dump j i => { s with disk := .snap s.flags, pc := next j i }
  | .join i =>
    if i < p.n then
      if p.todo i then (if s.w i = .running then s else { s with pc := .upd true (i + 1) })
      else { s with pc := .join (i + 1) }
    else { s with pc := .done }
  | .done => s
  | .raised => s

/-- A step of a worker: adding a state; `StateIO.save` (state_io.py:157-163) as opening, writing a part, writing all; ending after having
saved everything; ending in an arbitrary moment, by an exception or by returning without saving (only if `die`). -/
inductive Work (die : Bool) : Sys → Sys → Prop
  | add {s i} : s.w i = .running → Work die s { s with prog := set s.prog i (s.prog i + 1) }
  | opn {s i} : s.w i = .running → Work die s { s with files := set s.files i .empty }
  | part {s i} : s.w i = .running → s.files i = .empty → Work die s { s with files := set s.files i .torn }
  | flush {s i} : s.w i = .running → (s.files i = .empty ∨ s.files i = .torn) → Work die s { s with files := set s.files i (.data (s.prog i)) }
  | finish {s i} : s.w i = .running → s.files i = .data (s.prog i) → Work die s { s with w := set s.w i .ended }
  | die {s i} : die = true → s.w i = .running → Work die s { s with w := set s.w i .ended }

/-- One step of the system. multi_thread.py:181-229. -/
inductive Step (p : Par) (die : Bool) : Sys → Sys → Prop
  | main {s} (other : Nat) : Step p die s (mainStep p other s)
  | work {s t} : Work die s t → Step p die s t

/-- The states that can occur, with arbitrary scheduling. multi_thread.py:143-229. -/
inductive Reach (p : Par) (die : Bool) (s₀ : Sys) : Sys → Prop
  | start : Reach p die s₀ s₀
  | step {s t} : Reach p die s₀ s → Step p die s t → Reach p die s₀ t

/-- The round-wise part of `recover`, multi_thread.py:326-346: whether the round is to be run again, and the number of states of the saver
it continues with (`none`: the newly created saver). -/
def recoverRound (alive : Bool) (f : File) : Except PyErr (Bool × Option Nat) :=
  if alive then
    match f with
    | .missing => .error .fileNotFoundError
    | .empty => .ok (true, none)
    | .torn => .error .unpicklingError
    | .data k => .ok (true, some k)
  else
    match f with
    | .missing => .ok (true, none)
    | .empty => .ok (true, none)
    | .torn => .error .unpicklingError
    | .data k => .ok (false, some k)

/-- `recover`, multi_thread.py:301-348, after a crash that leaves the given files. A breakpoint file which is absent or incomplete
raises (EOFError or UnpicklingError are not distinguished). -/
def recover (n : Nat) (disk : Disk) (files : Nat → File) : Except PyErr (List (Bool × Option Nat)) :=
  match disk with
  | .missing => .error .fileNotFoundError
  | .torn => .error .unpicklingError
  | .snap flags => (List.range n).mapM (fun i => recoverRound (flags i) (files i))

end Alipy.Threads

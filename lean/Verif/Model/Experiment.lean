import Verif.Model.Stopping
import Verif.Model.Threads

/-! # The rounds of an `AlExperiment`: `alipy/experiment/al_experiment.py`, lines 304-422

All rounds use the one object `self._model`: they fit it, predict with it and pass it to the query strategy. With `multi_thread=True` (the default) the rounds are worker threads of
`aceThreading`; their steps are interleaved arbitrarily. A step of a round is one use of the model. `fit` is taken to depend on the labelled examples only, and to be one step; the query
strategy is a function of the round, the iteration, the model and the two index sets. Saving to files is not modelled here. -/
namespace Alipy.Exper
open Alipy

/-- The data, as seen by the rounds: `fit` with the examples of the index list, the metric of a model on the test set of a round, the query strategy, the clock readings of
`is_stop`. al_experiment.py:368, 383, 389-406. -/
structure Env (μ : Type) where
  train : List Val → Except PyErr μ
  perf : Nat → μ → Obj (List Val)
  strat : Nat → Nat → μ → IC → IC → Except PyErr (List Val)
  clock : Nat → Nat → ℚ

/-- The next thing a round does: al_experiment.py: `fit` (lines 368, 410), `predict` and what follows (lines 369-387, 411-421), `is_stop` (line 389), `select` and the update of the sets (lines 390-408). -/
inductive PC where
  | fit | pred | check | select | ended
  deriving DecidableEq, Repr

/-- A round: `i` is the number of iterations done, `sel` the last selection, `init` the initial point, `err` the exception that has ended it. al_experiment.py:361-421. -/
structure Round where
  pc : PC
  i : Nat
  s : LoopState
  sel : List Val
  init : Option (Obj (List Val))
  err : Option PyErr

/-- The round before its start: al_experiment.py:354-356 or multi_thread.py:88-104, and al_experiment.py:366-367, 386. -/
def Round.new (Ldata Udata : List Val) (stop : Stop) : Round :=
  ⟨.fit, 0, ⟨IC.mk' Ldata, IC.mk' Udata, StateIO.new (IC.mk' Ldata) (IC.mk' Udata), stop⟩, [], none, none⟩

/-- A round that ends with an exception (al_experiment.py:361-421 catches none). -/
def Round.fail (r : Round) (e : PyErr) : Round := { r with pc := .ended, err := some e }

variable {μ : Type}

/-- One step of round `k`, al_experiment.py:361-421; `m` is `self._model`, `none` before the first `fit`. -/
def step (env : Env μ) (k : Nat) (m : Option μ) (r : Round) : Option μ × Round :=
  match r.pc with
  | .fit =>
    match env.train r.s.L.inner with
    | .error e => (m, r.fail e)
    | .ok m' => (some m', { r with pc := .pred })
  | .pred =>
    match m with
    | none => (m, r.fail .genericException)
    | some m' =>
      match r.init with
      | none => (m, { r with pc := .check, init := some (env.perf k m') })
      | some _ =>
        match r.s.saver.addState icOps (.st (State.new icOps (.inr r.sel) (env.perf k m') Option.none Option.none)) with
        | (_, some e) => (m, r.fail e)
        | (saver', none) =>
          match r.s.stop.update icOps saver' with
          | .error e => (m, r.fail e)
          | .ok stop' => (m, { r with pc := .check, i := r.i + 1, s := { r.s with saver := saver', stop := stop' } })
  | .check =>
    match r.s.stop.isStop (env.clock k r.i) with
    | .error e => (m, r.fail e)
    | .ok true => (m, { r with pc := .ended })
    | .ok false => (m, { r with pc := .select })
  | .select =>
    match m with
    | none => (m, r.fail .genericException)
    | some m' =>
      match env.strat k r.i m' r.s.L r.s.U with
      | .error e => (m, r.fail e)
      | .ok sel =>
        match r.s.L.update (.many sel) with
        | (_, some e) => (m, r.fail e)
        | (L', none) => (m, { r with pc := .fit, sel := sel, s := { r.s with L := L', U := r.s.U.differenceUpdate (.many sel) } })
  | .ended => (m, r)

/-! ## `multi_thread=True`, al_experiment.py:337-346 -/

/-- `self._model` and the local variables of the rounds, al_experiment.py:361-386. -/
structure Conf (μ : Type) where
  model : Option μ
  rounds : Nat → Round

/-- A step of round `k`, al_experiment.py:361-421. -/
def Conf.step (env : Env μ) (c : Conf μ) (k : Nat) : Conf μ :=
  ⟨(Exper.step env k c.model (c.rounds k)).1, Threads.set c.rounds k (Exper.step env k c.model (c.rounds k)).2⟩

/-- What can happen while `start_all_threads` (al_experiment.py:345) runs: a step of the main thread; a step of a running worker; the end of a worker whose round has ended. -/
inductive Reach (p : Threads.Par) (env : Env μ) (rounds : Nat → Round) : Threads.Sys → Conf μ → Prop
  | start : Reach p env rounds (Threads.init p (fun _ => .missing) .missing) ⟨none, rounds⟩
  | main {T c} (other : Nat) : Reach p env rounds T c → Reach p env rounds (Threads.mainStep p other T) c
  | work {T c} (k : Nat) : Reach p env rounds T c → T.w k = .running → Reach p env rounds T (c.step env k)
  | finish {T c} (k : Nat) : Reach p env rounds T c → T.w k = .running → (c.rounds k).pc = .ended → Reach p env rounds { T with w := Threads.set T.w k .ended } c

/-! ## `multi_thread=False`, al_experiment.py:348-359 -/

/-- One round (al_experiment.py:357), with the model as the rounds before have left it: steps until it has ended; `none` if this takes more than `fuel` steps. -/
def runRound (env : Env μ) (k : Nat) : Nat → Option μ × Round → Option (Option μ × Round)
  | 0, _ => none
  | fuel + 1, x => if x.2.pc = .ended then some x else runRound env k fuel (step env k x.1 x.2)

/-- The loop over the rounds, al_experiment.py:353-359, from round `k` on, `n` of them; an exception ends it. -/
def sequential (env : Env μ) (rounds : Nat → Round) (fuel : Nat) : Nat → Nat → Option μ → Option (Except PyErr (List Round))
  | 0, _, _ => some (.ok [])
  | n + 1, k, m =>
    match runRound env k fuel (m, rounds k) with
    | none => none
    | some (m', r) =>
      match r.err with
      | some e => some (.error e)
      | none =>
        match sequential env rounds fuel n (k + 1) m' with
        | none => none
        | some (.error e) => some (.error e)
        | some (.ok rs) => some (.ok (r :: rs))

end Alipy.Exper

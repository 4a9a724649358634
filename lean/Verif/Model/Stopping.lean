import Verif.Model.State

/-! # Model of `alipy/experiment/stopping_criteria.py` and of the main loop of `alipy/experiment/al_experiment.py` -/
namespace Alipy

inductive Criterion where
  | none | numOfQueries | costLimit | percentOfUnlabel | timeLimit
  deriving DecidableEq, Repr

/-- A number given by the user. stopping_criteria.py lines 58-67. -/
inductive PyNum where
  | int (n : Int)
  | float (q : ℚ)
  deriving DecidableEq, Repr

def PyNum.val : PyNum → ℚ
  | .int n => n
  | .float q => q

/-- `int(x)` on a float: truncation towards zero. stopping_criteria.py line 64. -/
def pyTrunc (q : ℚ) : Int := if 0 ≤ q then ⌊q⌋ else ⌈q⌉

/-- `StoppingCriteria`. `startTime` is `_start_time` (only read for `time_limit`); `initValue` is `_init_value`. stopping_criteria.py lines 57-78. -/
structure Stop where
  crit : Criterion
  value : Option ℚ
  initValue : Option ℚ
  startTime : ℚ
  iter : Nat
  accum : ℚ
  unlabel : Nat
  percent : ℚ
  deriving DecidableEq, Repr

namespace Stop
variable {κ ε σ : Type}

/-- Line 55: the admitted names. -/
def parse : Option String → Except PyErr Criterion
  | Option.none => .ok .none
  | some "num_of_queries" => .ok .numOfQueries
  | some "cost_limit" => .ok .costLimit
  | some "percent_of_unlabel" => .ok .percentOfUnlabel
  | some "time_limit" => .ok .timeLimit
  | some _ => .error .valueError

/-- `StoppingCriteria(stopping_criteria, value)`, stopping_criteria.py lines 54-78; `now` is `time.perf_counter()`.
`int(None)` is a TypeError. -/
def new (name : Option String) (value : Option PyNum) (now : ℚ) : Except PyErr Stop :=
  match parse name with
  | .error e => .error e
  | .ok .numOfQueries =>
    match value with
    | Option.none => .error .typeError
    | some (.int n) => .ok ⟨.numOfQueries, some n, some n, now, 0, 0, 100, 0⟩
    | some (.float q) => .ok ⟨.numOfQueries, some (pyTrunc q), some (pyTrunc q), now, 0, 0, 100, 0⟩
  | .ok c => .ok ⟨c, value.map PyNum.val, value.map PyNum.val, now, 0, 0, 100, 0⟩

/-- `is_stop()`, stopping_criteria.py lines 80-109. Comparing with `None` is a TypeError. -/
def isStop (s : Stop) (now : ℚ) : Except PyErr Bool :=
  if s.unlabel = 0 then .ok true
  else
    match s.crit, s.value with
    | .none, _ => .ok false
    | _, Option.none => .error .typeError
    | .numOfQueries, some v => .ok (decide (v ≤ s.iter))
    | .costLimit, some v => .ok (decide (v ≤ s.accum))
    | .percentOfUnlabel, some v => if 1 < v ∨ v < 0 then .error .valueError else .ok (decide (v ≤ s.percent))
    | .timeLimit, some v => .ok (decide (v ≤ now - s.startTime))

/-- `update_information(saver)`, stopping_criteria.py lines 111-128. -/
def update (ops : CollOps κ ε σ) (s : Stop) (saver : StateIO κ σ) : Except PyErr Stop :=
  match StateIO.getWorkspace ops saver Option.none, StateIO.getWorkspace ops saver (some 0) with
  | .error e, _ => .error e
  | .ok _, .error e => .error e
  | .ok (_, U), .ok (_, U0) =>
    let s := { s with unlabel := ops.len U }
    match s.crit with
    | .numOfQueries => .ok { s with iter := saver.states.length }
    | .costLimit => .ok { s with accum := saver.cost }
    | .percentOfUnlabel =>
      if ops.len U0 = 0 then .error .zeroDivisionError
      else .ok { s with percent := ((ops.len U0 : ℚ) - (ops.len U : ℚ)) / (ops.len U0 : ℚ) }
    | _ => .ok s

/-- `reset()`, stopping_criteria.py lines 130-139. -/
def reset (s : Stop) (now : ℚ) : Stop :=
  { s with value := s.initValue, startTime := now, iter := 0, accum := 0, unlabel := 100, percent := 0 }

end Stop

/-! ## `AlExperiment.__al_main_loop`, al_experiment.py lines 361-422 -/

/-- What the loop is given: the query strategy (it may depend on the iteration, so on any internal state and randomness),
the performance after each iteration (model training is not modelled) and the clock readings of `is_stop`. -/
structure LoopEnv where
  strat : Nat → IC → IC → Except PyErr (List Val)
  perf : Nat → Obj (List Val)
  clock : Nat → ℚ

structure LoopState where
  L : IC
  U : IC
  saver : StateIO IC (List Val)
  stop : Stop
  deriving DecidableEq, Repr

/-- Body of the while loop, lines 387-422: query, update both sets, record the state (without a cost), update the stopping
criterion. `saver.save()` is not modelled. -/
def loopBody (env : LoopEnv) (i : Nat) (s : LoopState) : Except PyErr LoopState :=
  match env.strat i s.L s.U with
  | .error e => .error e
  | .ok sel =>
    match s.L.update (.many sel) with
    | (_, some e) => .error e
    | (L', Option.none) =>
      let U' := s.U.differenceUpdate (.many sel)
      match s.saver.addState icOps (.st (State.new icOps (.inr sel) (env.perf i) Option.none Option.none)) with
      | (_, some e) => .error e
      | (saver', Option.none) =>
        match s.stop.update icOps saver' with
        | .error e => .error e
        | .ok stop' => .ok ⟨L', U', saver', stop'⟩

/-- `while not stopping_criterion.is_stop(): ...`; `none`: not finished after `fuel` iterations. -/
def loop (env : LoopEnv) : Nat → Nat → LoopState → Option (Except PyErr LoopState)
  | 0, _, _ => Option.none
  | fuel + 1, i, s =>
    match s.stop.isStop (env.clock i) with
    | .error e => some (.error e)
    | .ok true => some (.ok s)
    | .ok false =>
      match loopBody env i s with
      | .error e => some (.error e)
      | .ok s' => loop env fuel (i + 1) s'

/-- One fold of the experiment, lines 354-358 and 361-421: the collections and the saver are built from the index lists of
the split. -/
def mainLoop (env : LoopEnv) (Ldata Udata : List Val) (stop : Stop) (fuel : Nat) : Option (Except PyErr LoopState) :=
  loop env fuel 0 ⟨IC.mk' Ldata, IC.mk' Udata, StateIO.new (IC.mk' Ldata) (IC.mk' Udata), stop⟩

end Alipy

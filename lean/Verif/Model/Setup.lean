import Verif.Model.Py

/-! # Setting up an `AlExperiment`: `alipy/experiment/al_experiment.py`, lines 89-359 and 424-435

The attributes of the object and the methods as steps. Index lists, arguments and results are of arbitrary types; whether the constructor of a strategy, `split` or a round of the main loop
raises is a parameter of the call. -/
namespace Alipy.Setup
open Alipy

/-- What `set_query_strategy` is called with: a class (with keyword arguments), or a name (with keyword arguments). al_experiment.py:120-144. -/
inductive Strategy where
  | custom (cls args : Nat)
  | named (name : String) (args : Nat)
  deriving DecidableEq, Repr

/-- The two strategies that are constructed in every round, al_experiment.py:174. -/
def perRound (name : String) : Bool := name = "QueryInstanceGraphDensity" || name = "QueryInstanceQUIRE"

/-- The names that are accepted, al_experiment.py:155-158. -/
def known : List String :=
  ["QueryInstanceQBC", "QueryInstanceUncertainty", "QueryRandom", "QueryInstanceRandom", "QueryInstanceGraphDensity", "QueryInstanceQUIRE", "QueryInstanceBMDR", "QueryInstanceSPAL",
    "QueryInstanceLAL", "QueryExpectedErrorReduction"]

/-- The metrics that are accepted, al_experiment.py:221-223. -/
def metrics : List String :=
  ["accuracy_score", "roc_auc_score", "get_fps_tps_thresholds", "hamming_loss", "one_error", "coverage_error", "label_ranking_loss", "label_ranking_average_precision_score", "zero_one_loss"]

/-- The four index arguments; `ι` is the type of the index list of a round. al_experiment.py:106, 230 and 295. -/
structure Idx (ι : Type) where
  train : List ι
  test : List ι
  lab : List ι
  unl : List ι

/-- The comparison of al_experiment.py:107, 248 and multi_thread.py:82. -/
def Idx.sameLen {ι : Type} (s : Idx ι) : Bool := s.train.length = s.test.length && s.test.length = s.lab.length && s.lab.length = s.unl.length

/-- The attributes, al_experiment.py:91-118, 146-152, 178-180. `idx` are `_train_idx`, …, which do not exist at first; `metric` is `_performance_metric`, existing when `_metrics` is set; `custom` is
`__custom_func_arg`, existing when `__custom_strategy_flag` is set; `name`, `qf`, `kw` are `_query_function_name`, `_query_function`, `_query_function_kwargs`. -/
structure Exp (ι ρ : Type) where
  split : Bool
  count : Int
  idx : Option (Idx ι)
  metric : Option String
  custom : Option Nat
  name : Option String
  qf : Option Strategy
  kw : Option Nat
  needTrain : Bool
  results : List ρ

variable {ι ρ : Type}

/-- `set_data_split`, al_experiment.py:230-256, also the part of the constructor in lines 106-115. -/
def setSplit (e : Exp ι ρ) (s : Idx ι) : Exp ι ρ × Option PyErr :=
  if s.sameLen then ({ e with split := true, idx := some s, count := s.train.length }, none) else (e, some .valueError)

/-- The constructor, al_experiment.py:89-118; `metric` is the argument `performance_metric`. `check_X_y` and the stopping criterion are not modelled. -/
def create (_metric : String) (idx : Option (Idx ι)) : Except PyErr (Exp ι ρ) :=
  let e : Exp ι ρ := ⟨false, 0, none, none, none, none, none, none, false, []⟩
  match idx with
  | none => .ok e
  | some s =>
    match setSplit e s with
    | (e', none) => .ok e'
    | (_, some x) => .error x

/-- `set_query_strategy`, al_experiment.py:120-202; `fails`: what the constructor of the strategy raises. Line 141 never raises, as `_existed_query_strategy` is never set. Line 175 reads `_train_idx`,
which does not exist before a split. -/
def setStrategy (e : Exp ι ρ) (s : Strategy) (fails : Option PyErr) : Exp ι ρ × Option PyErr :=
  match s with
  | .custom _ args =>
    let e := { e with custom := some args, name := some "user-defined strategy" }
    match fails with
    | some x => (e, some x)
    | none => ({ e with qf := some s }, none)
  | .named name args =>
    if known.contains name then
      let e := { e with name := some name }
      if perRound name then
        match e.idx with
        | none => (e, some .attributeError)
        | some _ => ({ e with needTrain := true, kw := some args }, none)
      else
        match fails with
        | some x => (e, some x)
        | none => ({ e with qf := some s }, none)
    else (e, some .notImplementedError)

/-- `set_performance_metric`, al_experiment.py:204-228. -/
def setMetric (e : Exp ι ρ) (m : String) : Exp ι ρ × Option PyErr :=
  if metrics.contains m then ({ e with metric := some m }, none) else (e, some .notImplementedError)

/-- `split_AL`, al_experiment.py:258-302; `out`: what `split` returns or raises. -/
def splitAL (e : Exp ι ρ) (count : Int) (out : Except PyErr (Idx ι)) : Exp ι ρ × Option PyErr :=
  let e := { e with count := count, split := true }
  match out with
  | .error x => (e, some x)
  | .ok s => ({ e with idx := some s }, none)

/-- Which `select` the loop calls, al_experiment.py:372-406: that of the object made at `set_query_strategy`, with the keyword arguments of a user-defined strategy or the ones of the loop, or that of an
object made in the round. -/
inductive Used where
  | obj (s : Strategy) (args : Option Nat)
  | fresh (name : String) (args : Nat)
  deriving DecidableEq, Repr

/-- The choice made in the loop. A local variable or attribute that does not exist raises (`UnboundLocalError` is counted as a general exception). al_experiment.py:372-380 and 390-406. -/
def used (e : Exp ι ρ) : Except PyErr Used :=
  match e.custom with
  | some a =>
    match e.qf with
    | none => .error .attributeError
    | some q => .ok (.obj q (some a))
  | none =>
    match e.name with
    | none => .error .attributeError
    | some n =>
      if perRound n then
        match e.needTrain, e.kw with
        | true, some a => .ok (.fresh n a)
        | _, _ => .error .genericException
      else
        match e.qf with
        | none => .error .attributeError
        | some q => .ok (.obj q none)

/-- What a round runs with. al_experiment.py:354-358. -/
structure Config (ι : Type) where
  used : Except PyErr Used
  metric : String
  train : ι
  test : ι
  lab : ι
  unl : ι

/-- The configurations of the rounds, in order: the lists at the same positions. al_experiment.py:353-358. -/
def configs (u : Except PyErr Used) (metric : String) : List ι → List ι → List ι → List ι → List (Config ι)
  | a :: as, b :: bs, c :: cs, d :: ds => ⟨u, metric, a, b, c, d⟩ :: configs u metric as bs cs ds
  | _, _, _, _ => []

/-- The rounds of `start_query(multi_thread=False)`, al_experiment.py:353-359: an exception ends the loop, the results before it have been appended. `run` gives the saver at the end of the round and the
exception that ends it, if any. -/
def seqRounds (run : Nat → Config ι → ρ × Option PyErr) : Nat → List (Config ι) → List ρ × Option PyErr
  | _, [] => ([], none)
  | k, c :: cs =>
    match run k c with
    | (_, some x) => ([], some x)
    | (r, none) => (r :: (seqRounds run (k + 1) cs).1, (seqRounds run (k + 1) cs).2)

/-- The loop `for round in range(self._split_count)`: the configurations of the first `count` rounds, then `IndexError` if there are fewer. al_experiment.py:353. -/
def seqAll (run : Nat → Config ι → ρ × Option PyErr) (count : Int) (cs : List (Config ι)) : List ρ × Option PyErr :=
  match seqRounds run 0 (cs.take count.toNat) with
  | (rs, some x) => (rs, some x)
  | (rs, none) => if cs.length < count.toNat then (rs, some .indexError) else (rs, none)

/-- The rounds of `multi_thread=True`, al_experiment.py:338-346, multi_thread.py:122-124: an exception in a worker ends this thread only; the savers of all rounds are returned. -/
def multiRounds (run : Nat → Config ι → ρ × Option PyErr) : Nat → List (Config ι) → List ρ
  | _, [] => []
  | k, c :: cs => (run k c).1 :: multiRounds run (k + 1) cs

/-- `start_query`, al_experiment.py:304-359. -/
def startQuery (e : Exp ι ρ) (multi : Bool) (run : Nat → Config ι → ρ × Option PyErr) : Exp ι ρ × Option PyErr :=
  if e.split then
    match e.metric with
    | none => (e, some .genericException)
    | some m =>
      match e.idx with
      | none => if multi || 0 < e.count then (e, some .attributeError) else (e, none)
      | some s =>
        let cs := configs (used e) m s.train s.test s.lab s.unl
        if multi then
          if s.sameLen then ({ e with results := multiRounds run 0 cs }, none) else (e, some .assertionError)
        else
          ({ e with results := e.results ++ (seqAll run e.count cs).1 }, (seqAll run e.count cs).2)
  else (e, some .genericException)

/-- `get_experiment_result`, al_experiment.py:424-435. -/
def getResult (e : Exp ι ρ) : Except PyErr (List ρ) := if e.results.length = 0 then .error .genericException else .ok e.results

/-- A call of a method of the object. al_experiment.py:120-435. -/
inductive Call (ι ρ : Type) where
  | strategy (s : Strategy) (fails : Option PyErr)
  | metric (m : String)
  | data (s : Idx ι)
  | splitAL (count : Int) (out : Except PyErr (Idx ι))
  | start (multi : Bool) (run : Nat → Config ι → ρ × Option PyErr)

/-- The call: the object afterwards, and what is raised (al_experiment.py, the methods above). -/
def exec (e : Exp ι ρ) : Call ι ρ → Exp ι ρ × Option PyErr
  | .strategy s fails => setStrategy e s fails
  | .metric m => setMetric e m
  | .data s => setSplit e s
  | .splitAL n out => splitAL e n out
  | .start multi run => startQuery e multi run

/-- A sequence of calls, in the program of a user that catches exceptions. Calls of the methods of al_experiment.py:120-435. -/
def calls (e : Exp ι ρ) (h : List (Call ι ρ)) : Exp ι ρ := h.foldl (fun e c => (exec e c).1) e

end Alipy.Setup

import Verif.Model.Stopping
import Verif.Model.Misc

/-!
# Model of a session that asks for instance-label pairs or feature values

The loop of `examples/AL_settings/feature_querying.py` (lines 39-59, 74-93, 107-126; the loop of `multi label.py` lines 41-66 makes the
same calls with a condition of its own). The library objects used are a `MultiLabelIndexCollection` for the known and one for the unknown
entries, a `StateIO`, a `State` per query and a `StoppingCriteria`. Model training and scoring are not modelled (`perf`).

What `select` returns is an object, and the same object is used three times: by `update`, by `difference_update` and then by `State`. All
pair-selecting strategies return the container of unknown entries *itself* when it is small. So an answer is either a new list or that
container.
-/
namespace Alipy.PairSession

/-- What `select` returns: a new list, or the object passed as the unknown entries. feature_querying.py line 41. -/
inductive Answer where
  | fresh (items : List Item)
  | same
  deriving DecidableEq, Repr

/-- What the session is given: the query strategy (it may depend on the iteration, so on any internal state and randomness), the performance
and the clock readings of `is_stop`. feature_querying.py lines 37, 39 and 48-52. -/
structure Env where
  strat : Nat → MLIC → MLIC → Except PyErr Answer
  perf : Nat → Obj (List Item ⊕ MLIC)
  clock : Nat → ℚ

structure PState where
  known : MLIC
  unknown : MLIC
  saver : StateIO MLIC (List Item ⊕ MLIC)
  stop : Stop

/-- The value of an answer at a moment at which the container of unknown entries is `u`. feature_querying.py lines 44, 45 and 55. -/
def Answer.value (a : Answer) (u : MLIC) : List Item ⊕ MLIC :=
  match a with
  | .fresh items => .inl items
  | .same => .inr u

/-- Body of the loop, feature_querying.py lines 41-59: `select`, `label_ind.update`, `unlab_ind.difference_update`, `State(select_index=..)`,
`add_state`, `update_information`. `State` copies the selection (state.py line 47) after the unknown entries have been changed. -/
def body (env : Env) (i : Nat) (s : PState) : Except PyErr PState :=
  match env.strat i s.known s.unknown with
  | .error e => .error e
  | .ok a =>
    match mlOps.update s.known (a.value s.unknown) with
    | (_, some e) => .error e
    | (known, none) =>
      match mlOps.diff s.unknown (a.value s.unknown) with
      | (_, some e) => .error e
      | (unknown, none) =>
        match s.saver.addState mlOps (.st (State.new mlOps (.inr (a.value unknown)) (env.perf i) none none)) with
        | (_, some e) => .error e
        | (saver, none) =>
          match s.stop.update mlOps saver with
          | .error e => .error e
          | .ok stop => .ok ⟨known, unknown, saver, stop⟩

/-- `while not stopping_criterion.is_stop(): ...`; `none`: not finished after `fuel` iterations. feature_querying.py line 39. -/
def loop (env : Env) : Nat → Nat → PState → Option (Except PyErr PState)
  | 0, _, _ => none
  | fuel + 1, i, s =>
    match s.stop.isStop (env.clock i) with
    | .error e => some (.error e)
    | .ok true => some (.ok s)
    | .ok false =>
      match body env i s with
      | .error e => some (.error e)
      | .ok s' => loop env fuel (i + 1) s'

/-- The start, feature_querying.py lines 34-36: the containers are built from the index lists of the split. -/
def session (env : Env) (lab unlab : List Item) (size : Int) (stop : Stop) (fuel : Nat) : Option (Except PyErr PState) :=
  match MLIC.mk' lab (some size) with
  | .error e => some (.error e)
  | .ok known =>
    match MLIC.mk' unlab (some size) with
    | .error e => some (.error e)
    | .ok unknown => loop env fuel 0 ⟨known, unknown, StateIO.new known unknown, stop⟩

/-- `QueryFeatureRandom.select(observed_entries, unkonwn_entries, batch_size)`, query_features.py lines 551-556, on containers. `shuffle` is
the effect of `np.random.shuffle`. -/
def featureRandom (shuffle : List Int → List Int) (batch : Int) (unknown : MLIC) : Except PyErr Answer :=
  if unknown.inner.length ≤ 1 then .ok .same
  else
    match randperm shuffle (.int ((unknown.inner.length : Int) - 1)) (.int batch) with
    | .error e => .error e
    | .ok perm =>
      match pickAll unknown.inner perm with
      | .error e => .error e
      | .ok l => .ok (.fresh (l.map (fun q => .tup (MLIC.toIx q))))

end Alipy.PairSession

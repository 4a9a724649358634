import Verif.Model.NoisyOracles

/-! # Model of `QueryNoisyOraclesAll` and `QueryNoisyOraclesRandom` (`alipy/query_strategy/noisy_oracles.py`)

`ν` is the type of the names of oracles (strings for an `Oracles` object, positions for a list). -/
namespace Alipy.Noisy
open Alipy.Select
variable {α ν β K : Type}

/-- A strategy object, `BaseNoisyOracleQuery.__init__`, base.py lines 38-50: the dictionary from positions to names, made when the object
is constructed. The oracles themselves are kept by reference, so that they may have changed since. -/
structure Picker (ν : Type) where
  table : List (Nat × ν)
  deriving DecidableEq, Repr

/-- `dict(enumerate(self._oracles_iterset))`, base.py line 50. -/
def Picker.new (names : List ν) : Picker ν := ⟨names.mapIdx (fun i n => (i, n))⟩

/-- `QueryNoisyOraclesAll.select_by_given_instance`, noisy_oracles.py lines 598-611 (a view of the values of the dictionary). -/
def Picker.all (p : Picker ν) : Except PyErr (List ν) := .ok (p.table.map Prod.snd)

/-- `QueryNoisyOraclesRandom.select_by_given_instance`, lines 617-630: `now` is the number of oracles at the time of the call, `draw` the
result of `np.random.randint(0, now, 1)[0]`, which raises ValueError if there is no oracle. -/
def Picker.random (p : Picker ν) (now draw : Nat) : Except PyErr (List ν) :=
  if now = 0 then .error .valueError
  else
    match dictGet draw p.table with
    | none => .error .keyError
    | some n => .ok [n]

/-- What `select` returns: the array of the unlabelled indexes (line 448), or a pair (line 453). -/
inductive Chosen (α ν : Type) where
  | indexes (u : List α)
  | pair (instances : List α) (oracles : List ν)
  deriving DecidableEq, Repr

section
variable [Field K] [LinearOrder K]

/-- `QueryNoisyOraclesSelectInstanceUncertainty.select_by_prediction_mat`, lines 420-453; `pick` is `select_by_given_instance`. -/
def selectNoisy (log : K → K) (argsort : List K → List Nat) (u : Coll α) (predict : Pred K) (pick : α → Except PyErr (List ν)) :
    Except PyErr (Chosen α ν) :=
  if u.items.length ≤ 1 then .ok (.indexes u.items)
  else
    match uncertainty log argsort .leastConfident (.array u.items) predict 1 with
    | .error e => .error e
    | .ok [] => .error .indexError
    | .ok (x :: _) =>
      match pick x with
      | .error e => .error e
      | .ok ns => .ok (.pair [x] ns)

/-- `instance, oracles = strategy.select(...)`: an array of at most one index cannot be unpacked into two values (ValueError). For instance examples/AL_settings/noisy_oracles.py line 71. -/
def Chosen.unpack : Chosen α ν → Except PyErr (List α × List ν)
  | .indexes _ => .error .valueError
  | .pair xs ns => .ok (xs, ns)

/-- The data of a script with noisy oracles: the unlabelled indexes, the labels bought so far (in order), the oracles. examples/AL_settings/noisy_oracles.py lines 49-67. -/
structure NoisyState (β : Type) where
  u : List Key
  bought : List (Key × β)
  orc : Oracles (List β) Key

/-- One round of such a script (examples/AL_settings/noisy_oracles.py lines 71-77; repository, model and saver are left out): select, vote, record, move the index. `predict u`
is the prediction matrix for the unlabelled indexes. -/
def noisyRound [DecidableEq β] (log : K → K) (argsort : List K → List Nat) (predict : List Key → Pred K)
    (pick : Key → Except PyErr (List String)) (s : NoisyState β) : NoisyState β × Option PyErr :=
  match selectNoisy log argsort (.coll s.u) (predict s.u) pick with
  | .error e => (s, some e)
  | .ok c =>
    match c.unpack with
    | .error e => (s, some e)
    | .ok ([], _) => (s, some .indexError)
    | .ok (x :: _, ns) =>
      match voteOfOracles x s.orc (some ns) with
      | (o, .error e) => ({ s with orc := o }, some e)
      | (o, .ok (_, l, _)) => (⟨s.u.erase x, s.bought ++ [(x, l)], o⟩, none)

/-- `n` rounds, stopping at the first exception. examples/AL_settings/noisy_oracles.py line 69. -/
def noisyRounds [DecidableEq β] (log : K → K) (argsort : List K → List Nat) (predict : List Key → Pred K)
    (pick : Key → Except PyErr (List String)) : Nat → NoisyState β → NoisyState β × Option PyErr
  | 0, s => (s, none)
  | n + 1, s =>
    match noisyRound log argsort predict pick s with
    | (s', some e) => (s', some e)
    | (s', none) => noisyRounds log argsort predict pick n s'

end
end Alipy.Noisy

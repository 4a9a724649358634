import Verif.Model.Stopping
import Verif.Model.Repository

/-! # Model of a user's active-learning loop

The loop every script of `/repo/examples/AL_settings` writes by hand: select, ask the oracle, store the answer in the repository,
move the indexes, record a state with its cost, tell the stopping criterion. Followed here is
`/repo/examples/AL_settings/noisy_oracles.py` lines 63-94 with a single oracle (`oracle.query_by_index(select_ind)`, as in
`/repo/examples/tools/Oracle_usage.py` line 35) and with the cost also given to the repository. The parts are the models of
`Oracle`, `ElementRepository` / `MatrixRepository`, `IndexCollection`, `State`, `StateIO` and `StoppingCriteria`. The training of the
model only appears as what the strategy does and as the recorded performance. `saver.save()` is not modelled. -/
namespace Alipy

/-- What the loop uses of a repository: `update_query(labels, indexes, cost)` with lists, the labels and indexes of
`get_training_data()`, and the total cost. knowledge_repository.py lines 174-205, 269-290, 405-436, 555-570. -/
structure RepoOps (ρ β : Type) where
  update : ρ → List Key → List β → List ℚ → ρ × Option PyErr
  training : ρ → Except PyErr (List β × List Key)
  cost : ρ → ℚ

/-- `ElementRepository` without examples, knowledge_repository.py lines 174-205 and 269-290. -/
def elementOps {β : Type} : RepoOps (ERepo Key β Unit) β where
  update r ks bs cs := r.updateQuery (.many ks) (.many bs) (some (.many cs)) none
  training r := r.getTrainingData.map (fun p => p.2)
  cost r := r.cost

/-- `MatrixRepository` without examples, knowledge_repository.py lines 405-436 and 555-570. -/
def matrixOps {γ : Type} [DecidableEq γ] : RepoOps (MRepo Key γ) (Lab γ) where
  update r ks bs cs := r.updateQuery (.many bs) (.many ks) (some (.many cs)) none
  training r :=
    match r.getTrainingData with
    | none => .error .typeError
    | some p => .ok p.2
  cost r := r.cost

/-- The objects of the loop. noisy_oracles.py lines 63-67. -/
structure Session (ρ : Type) where
  L : IC
  U : IC
  repo : ρ
  saver : StateIO IC (List Val)
  stop : Stop

/-- What the loop is given: the strategy (which may look at everything and depend on the iteration, so on any randomness), the
performances and the clock. noisy_oracles.py lines 69-83. -/
structure SessionEnv (ρ : Type) where
  strat : Nat → Session ρ → Except PyErr (List Val)
  perf : Nat → Obj (List Val)
  clock : Nat → ℚ

/-- The body of the loop, noisy_oracles.py lines 71-92. -/
def sessionBody {ρ χ β : Type} [DecidableEq χ] (ops : RepoOps ρ β) (o : Oracle χ β) (env : SessionEnv ρ) (i : Nat) (s : Session ρ) :
    Except PyErr (Session ρ) :=
  match env.strat i s with
  | .error e => .error e
  | .ok sel =>
    match o.queryByIndex (sel.map Val.key) with
    | .error e => .error e
    | .ok (labels, costs) =>
      match ops.update s.repo (sel.map Val.key) labels costs with
      | (_, some e) => .error e
      | (repo', none) =>
        match s.L.update (.many sel) with
        | (_, some e) => .error e
        | (L', none) =>
          let U' := s.U.differenceUpdate (.many sel)
          match s.saver.addState icOps (.st (State.new icOps (.inr sel) (env.perf i) none (some (.arr costs)))) with
          | (_, some e) => .error e
          | (saver', none) =>
            match s.stop.update icOps saver' with
            | .error e => .error e
            | .ok stop' => .ok ⟨L', U', repo', saver', stop'⟩

/-- `while not stopping_criterion.is_stop()`, noisy_oracles.py line 69; `none`: not finished after `fuel` iterations. -/
def session {ρ χ β : Type} [DecidableEq χ] (ops : RepoOps ρ β) (o : Oracle χ β) (env : SessionEnv ρ) :
    Nat → Nat → Session ρ → Option (Except PyErr (Session ρ))
  | 0, _, _ => none
  | fuel + 1, i, s =>
    match s.stop.isStop (env.clock i) with
    | .error e => some (.error e)
    | .ok true => some (.ok s)
    | .ok false =>
      match sessionBody ops o env i s with
      | .error e => some (.error e)
      | .ok s' => session ops o env fuel (i + 1) s'

/-- The objects at the start, noisy_oracles.py lines 63-67 (toolbox.py lines 356-384 for the repository, built by the caller). -/
def startSession {ρ : Type} (Ldata Udata : List Val) (repo : ρ) (stop : Stop) : Session ρ :=
  ⟨IC.mk' Ldata, IC.mk' Udata, repo, StateIO.new (IC.mk' Ldata) (IC.mk' Udata), stop⟩

end Alipy

import Verif.Model.Experiment

/-! What a round of an experiment has to give: a loop that trains its own model. -/
namespace Alipy.Spec
open Alipy Exper

variable {μ : Type}

/-- The loop of round `k` with its own model: `m` is the model after `i` iterations, trained with the labelled set of the round; the strategy gets this model, and the recorded performance
is that of the model trained with the labelled set after the query. -/
inductive OwnRun (env : Env μ) (k : Nat) (s₀ : LoopState) : Nat → μ → LoopState → Prop
  | start {m} : env.train s₀.L.inner = .ok m → OwnRun env k s₀ 0 m s₀
  | next {i m s sel L' saver' stop' m'} : OwnRun env k s₀ i m s → s.stop.isStop (env.clock k i) = .ok false → env.strat k i m s.L s.U = .ok sel →
      s.L.update (.many sel) = (L', none) → env.train L'.inner = .ok m' →
      s.saver.addState icOps (.st (State.new icOps (.inr sel) (env.perf k m') Option.none Option.none)) = (saver', none) → s.stop.update icOps saver' = .ok stop' →
      OwnRun env k s₀ (i + 1) m' ⟨L', s.U.differenceUpdate (.many sel), saver', stop'⟩

/-- `r` is the result of the round run with its own model until the stopping criterion says stop. -/
def OwnResult (env : Env μ) (k : Nat) (s₀ : LoopState) (r : Round) : Prop :=
  (∃ m₀, env.train s₀.L.inner = .ok m₀ ∧ r.init = some (env.perf k m₀)) ∧ ∃ m, OwnRun env k s₀ r.i m r.s ∧ r.s.stop.isStop (env.clock k r.i) = .ok true

end Alipy.Spec

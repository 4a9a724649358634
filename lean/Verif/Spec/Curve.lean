import Verif.Model.Experiment

/-! The learning curve of active learning: which performance belongs to a number of queries. -/
namespace Alipy.Spec
open Alipy Exper

variable {μ : Type}

/-- Labelled and unlabelled set of round `k` after a number of queries, each made by the strategy with the model fitted to the examples labelled so far. -/
inductive Labelled (env : Env μ) (k : Nat) (L₀ U₀ : IC) : Nat → IC → IC → Prop
  | start : Labelled env k L₀ U₀ 0 L₀ U₀
  | query {q L U m sel} : Labelled env k L₀ U₀ q L U → env.train L.inner = .ok m → env.strat k q m L U = .ok sel →
      Labelled env k L₀ U₀ (q + 1) (L.update (.many sel)).1 (U.differenceUpdate (.many sel))

/-- The performance, on the test set of round `k`, of the model fitted to the examples that are labelled after `q` queries. -/
def PerformanceAfter (env : Env μ) (k : Nat) (L₀ U₀ : IC) (q : Nat) (x : ℚ) : Prop :=
  ∃ L U m, Labelled env k L₀ U₀ q L U ∧ env.train L.inner = .ok m ∧ env.perf k m = .arr [x]

/-- `v` is the mean over the rounds `0, …, n - 1` of the performance after `q` queries. -/
def MeanPerformance (env : Env μ) (Ls Us : Nat → List Val) (n q : Nat) (v : ℚ) : Prop :=
  ∃ p : Nat → ℚ, (∀ k < n, PerformanceAfter env k (IC.mk' (Ls k)) (IC.mk' (Us k)) q (p k)) ∧ v = ((List.range n).map p).sum / n

end Alipy.Spec

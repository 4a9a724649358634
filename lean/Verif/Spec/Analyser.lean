import Mathlib.Algebra.Order.Field.Basic
import Mathlib.Algebra.BigOperators.Group.List.Basic
/-!
# Learning curves

A fold is a pair: the performance before the first query, if known, and the performances after the first, second, ... query.
-/
namespace Alipy.Spec

variable {K : Type} [Field K] [LinearOrder K]

/-- The performance after `q` queries. -/
def after (f : Option K × List K) (q : Nat) : Option K := match q with
  | 0 => f.1
  | q + 1 => f.2[q]?

/-- `v` is the mean over the folds of the performance after `q` queries. -/
def MeanAfter (folds : List (Option K × List K)) (q : Nat) (v : K) : Prop :=
  ∃ vs : List K, folds.map (fun f => after f q) = vs.map some ∧ v = vs.sum / vs.length

/-- The points of a learning curve from `q0` queries on, one for every `k` queries, the numbers of queries being shifted by `d`. -/
def ShiftedCurve (d : K) (folds : List (Option K × List K)) (q0 k : Nat) (pts : List (K × K)) : Prop :=
  (pts.map Prod.fst).Pairwise (· < ·) ∧
  ∀ x v, (x, v) ∈ pts ↔ ∃ q : Nat, q0 ≤ q ∧ k ∣ q - q0 ∧ x = (q : K) + d ∧ MeanAfter folds q v

/-- The points of a learning curve: numbers of queries and mean performances. -/
def LearningCurve (folds : List (Option K × List K)) (q0 k : Nat) (pts : List (K × K)) : Prop := ShiftedCurve 0 folds q0 k pts

/-- The mean of a list. -/
def average (l : List K) : K := l.sum / l.length

/-- The variance of a list: the mean squared distance from its mean. -/
def variance (l : List K) : K := average (l.map (fun x => (x - average l) ^ 2))

end Alipy.Spec

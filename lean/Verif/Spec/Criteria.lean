import Verif.Spec.Session
import Mathlib.Algebra.Order.Floor.Ring
import Mathlib.Data.Rat.Floor

/-! # What is expected of stopping criteria that say the same thing in different words -/
namespace Alipy.Spec

/-- A criterion as the user writes it: name and value. -/
abbrev Setting := Option String × Option PyNum

/-- Settings of `StoppingCriteria` that must lead to the same run (`same`), for a pool of `n` examples, prices `price`, and, if `single`
holds, one example per query. -/
structure CriteriaAgree (n : Nat) (single : Prop) (priceOf : Nat → ℚ) (us : List Nat) (same : Setting → Setting → Prop) : Prop where
  /-- one example per query: a fraction of the pool is a number of queries -/
  percent_queries : single → ∀ p : ℚ, 0 ≤ p → p ≤ 1 →
    same (some "percent_of_unlabel", some (.float p)) (some "num_of_queries", some (.int ⌈p * n⌉))
  /-- one example per query, one price for all: an amount of money is a number of queries -/
  cost_queries : single → ∀ w : ℚ, 0 < w → (∀ i ∈ us, priceOf i = w) → ∀ c : ℚ,
    same (some "cost_limit", some (.float c)) (some "num_of_queries", some (.int ⌈c / w⌉))
  /-- one price for all: an amount of money is a fraction of the pool, however many examples a query has -/
  cost_percent : ∀ w : ℚ, 0 < w → (∀ i ∈ us, priceOf i = w) → ∀ p : ℚ, 0 ≤ p → p ≤ 1 →
    same (some "cost_limit", some (.float (p * (w * n)))) (some "percent_of_unlabel", some (.float p))
  /-- all of the pool, or as many queries as examples, or the money for all examples: the same as no criterion -/
  percent_none : same (some "percent_of_unlabel", some (.float 1)) (none, none)
  queries_none : ∀ k : Int, (n : Int) ≤ k → same (some "num_of_queries", some (.int k)) (none, none)
  cost_none : (∀ i ∈ us, 0 < priceOf i) → ∀ c : ℚ, (us.dedup.map priceOf).sum ≤ c → same (some "cost_limit", some (.float c)) (none, none)

/-- What two settings of the criterion have in common when they lead to the same run: both runs end, with the same sets, repository and record
(which includes all queries and costs). -/
def SameRun {ρ χ β : Type} [DecidableEq χ] (ops : RepoOps ρ β) (o : Oracle χ β) (env : SessionEnv ρ) (Ldata Udata : List Val) (repo : ρ) (now : ℚ) (c c' : Setting) : Prop :=
  ∃ st st' r r', Stop.new c.1 c.2 now = .ok st ∧ Stop.new c'.1 c'.2 now = .ok st' ∧
    (∀ fuel, Udata.length < fuel → session ops o env fuel 0 (startSession Ldata Udata repo st) = some (.ok r)) ∧
    (∀ fuel, Udata.length < fuel → session ops o env fuel 0 (startSession Ldata Udata repo st') = some (.ok r')) ∧
    r.L = r'.L ∧ r.U = r'.U ∧ r.repo = r'.repo ∧ r.saver = r'.saver

/-- The same for `AlExperiment`, which records no costs: settings that must lead to the same run. -/
structure ExperimentAgree (n : Nat) (single : Prop) (same : Setting → Setting → Prop) : Prop where
  percent_queries : single → ∀ p : ℚ, 0 ≤ p → p ≤ 1 →
    same (some "percent_of_unlabel", some (.float p)) (some "num_of_queries", some (.int ⌈p * n⌉))
  percent_none : same (some "percent_of_unlabel", some (.float 1)) (none, none)
  queries_none : ∀ k : Int, (n : Int) ≤ k → same (some "num_of_queries", some (.int k)) (none, none)
  cost_none : ∀ c : ℚ, 0 < c → same (some "cost_limit", some (.float c)) (none, none)

/-- Two settings with which one fold of the experiment ends with the same sets and the same record. -/
def SameExperiment (env : LoopEnv) (Ldata Udata : List Val) (now : ℚ) (c c' : Setting) : Prop :=
  ∃ st st' r r', Stop.new c.1 c.2 now = .ok st ∧ Stop.new c'.1 c'.2 now = .ok st' ∧
    (∀ fuel, Udata.length < fuel → mainLoop env Ldata Udata st fuel = some (.ok r)) ∧
    (∀ fuel, Udata.length < fuel → mainLoop env Ldata Udata st' fuel = some (.ok r')) ∧
    r.L = r'.L ∧ r.U = r'.U ∧ r.saver = r'.saver

end Alipy.Spec

import Verif.Model.Workers

/-! Spec: the worker of a round alone. Only the syntax of events and views is taken from the model. -/
namespace Alipy.Spec
open Alipy.Workers

variable {ρ κ σ : Type}

/-- How many steps the worker of round `i` has made. -/
def stepsOf (i : Nat) : List (Ev κ) → Nat
  | [] => 0
  | .work j :: r => (if j = i then 1 else 0) + stepsOf i r
  | .user _ _ :: r => stepsOf i r

/-- A worker by itself, with sets and a saver nobody else has, after `k` steps. -/
def alone (step : View ρ κ σ → View ρ κ σ) : Nat → View ρ κ σ → View ρ κ σ
  | 0, v => v
  | k + 1, v => alone step k (step v)

/-- The program of the user changes only what it had before. -/
def OwnObjects (n : Nat) (evs : List (Ev κ)) : Prop := ∀ r x, Ev.user r x ∈ evs → r < n

/-- The parameters of a target function, as documented: `target_func(round, train_id, test_id, Ucollection, Lcollection, saver, examples, labels, global_parameters)`. -/
def targetParameters : List String := ["round", "train_id", "test_id", "Ucollection", "Lcollection", "saver", "examples", "labels", "global_parameters"]

end Alipy.Spec

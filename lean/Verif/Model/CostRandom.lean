import Verif.Model.Knapsack

/-! # Model of `QueryCostSensitiveRandom.select`, alipy/query_strategy/cost_sensitive.py lines 487-544

The pool is the list of pairs of the unlabelled collection (a copy: the collection of the caller is not changed), in the order in
which the set is listed. The order after removing a pair is taken to be the old one; as the positions drawn are arbitrary this is
no restriction. -/
namespace Alipy.CostSensitive
variable {K : Type} [Field K] [LinearOrder K]

/-- The costs of the labels, lines 520-529. -/
def labelCosts (nClasses : Nat) (cost : Option (List K)) : Except PyErr (List K) :=
  match cost with
  | none => .ok (List.replicate nClasses 1)
  | some c => if c.length = nClasses then .ok c else .error .assertionError

/-- The loop of lines 534-542. `draw k` is the k-th random number; `np.random.choice(0)` raises ValueError. `none` means that the
loop has not ended within `fuel` steps. -/
def randomLoop (costs : List K) (budget : K) (draw : Nat → Nat) : Nat → Nat → List (Int × Nat) → K → List (Int × Nat) →
    Option (Except PyErr (List (Int × Nat)))
  | 0, _, _, _, _ => none
  | _ + 1, _, [], _, _ => some (.error .valueError)
  | fuel + 1, k, p :: pool, current, acc =>
    let i := draw k % (p :: pool).length
    match (p :: pool)[i]? with
    | none => some (.error .indexError)
    | some q =>
      match costs[q.2]? with
      | none => some (.error .indexError)
      | some c =>
        if budget < current + c then some (.ok acc)
        else randomLoop costs budget draw fuel (k + 1) ((p :: pool).eraseIdx i) (current + c) (acc ++ [q])

/-- `select`, lines 487-544. -/
def randomSelect (fuel : Nat) (nClasses : Nat) (u : List (Int × Nat)) (cost : Option (List K)) (budget : K) (draw : Nat → Nat) :
    Option (Except PyErr (List (Int × Nat))) :=
  match labelCosts nClasses cost with
  | .error e => some (.error e)
  | .ok c => randomLoop c budget draw fuel 0 u 0 []

end Alipy.CostSensitive

import Verif.Model.Knapsack
import Mathlib.Algebra.Order.AbsoluteValue.Basic
/-!
# Cost-sensitive selection of instance-label pairs: `QueryCostSensitiveHALC` and `QueryCostSensitivePerformance`,
alipy/query_strategy/cost_sensitive.py:233-468 and 547-687

Matrices are functions of the instance and the class; `n` instances, `c` classes. `⊥` is `-np.infty`. The masks of the collections are predicates
(see C12 for `get_matrix_mask`), the values of the decision functions are parameters and are not 0.
-/
namespace Alipy.CostSensitive
open Alipy

section Selection
variable {V : Type} [AddCommMonoid V] [LinearOrder V]

/-- The candidates of class `j`, lines 445-453 and 632-640. `order j` is `np.argsort` of the column, reversed and cut to the budget. `Infor[sort_index][j]` is
row `j` of the rows of the candidates: IndexError if there are not more than `j` candidates. `np.where` returns a tuple of one array, so that
`len(useless_index)` is 1. -/
def candidates (order : Nat → List Nat) (budget j : Nat) : Except PyErr (List (Nat × Nat)) :=
  let s := (order j).reverse.take budget
  if s.length ≤ j then .error .indexError else .ok ((s.take (budget - 1)).map (fun k => (k, j)))

/-- `instance_pair[np.where(select_result != 0)[0]]`, lines 466 and 651. -/
def picked {α : Type} : List Bool → List α → List α
  | true :: f, x :: l => x :: picked f l
  | false :: f, _ :: l => picked f l
  | _, _ => []

/-- The selection of both strategies, lines 440-468 and 627-653: all candidates with their values and costs, then the knapsack. -/
def selectPairs (c : Nat) (info : Nat → Nat → V) (order : Nat → List Nat) (costs : List Int) (budget : Nat) : Except PyErr (List (Nat × Nat)) :=
  match (List.range c).mapM (candidates order budget) with
  | .error e => .error e
  | .ok ls =>
    let pairs := ls.flatten
    match knapsack (pairs.map (fun p => info p.1 p.2)) (pairs.map (fun p => costs.getD p.2 0)) budget with
    | .error e => .error e
    | .ok r => .ok (picked r.2 pairs)

/-- The costs, lines 427-438 and 609-618 (without an oracle). -/
def classCosts (c : Nat) (cost : Option (List Int)) : Except PyErr (List Int) :=
  match cost with
  | none => .ok (List.replicate c 1)
  | some l => if l.length = c then .ok l else .error .assertionError

/-- The part of `select` after the values have been computed. Lines 427-468 and 609-653. -/
def costSelect (c : Nat) (info : Nat → Nat → V) (order : Nat → List Nat) (cost : Option (List Int)) (budget : Nat) :
    Except PyErr (List (Nat × Nat)) :=
  match classCosts c cost with
  | .error e => .error e
  | .ok costs => selectPairs c info order costs budget

end Selection

section Values
variable {K : Type} [Field K] [LinearOrder K]

/-- `QueryCostSensitivePerformance.cal_uncertainty`, lines 672-687. -/
def perfInfo (unlab : Nat → Nat → Bool) (dv : Nat → Nat → K) (i j : Nat) : WithBot K := if unlab i j then ((|1 / dv i j| : K) : WithBot K) else ⊥

/-- `QueryCostSensitiveHALC.__init__`, lines 268-272: the weights. -/
def halcWeights (n c : Nat) (weights : Option (List K)) : Except PyErr (List K) :=
  match weights with
  | none => .ok (List.replicate c 1)
  | some w => if n = w.length then .ok w else .error .assertionError

/-- `QueryCostSensitiveHALC.cal_uncertainty`, lines 306-320. -/
def halcUncertainty (lab unlab : Nat → Nat → Bool) (w : Nat → K) (dv : Nat → Nat → K) (i j : Nat) : WithBot K :=
  if lab i j then ⊥ else if unlab i j then ((|w j / dv i j| : K) : WithBot K) else 0

/-- `cal_Udes`, lines 338-353, for one instance with uncertainties `u`; `tree a b`: `label_tree[a, b] == 1`, otherwise the entry is 0. The inner loop goes
over the *entries* of the row and uses them as labels: a 1 puts label 1 into the queue if label 1 is a child, a 0 label 0. `none`: the loop has not ended
within `fuel` rounds. -/
def udesLoop (c : Nat) (tree : Nat → Nat → Bool) (u : Nat → WithBot K) : Nat → List Nat → WithBot K → Option (WithBot K)
  | 0, _, _ => none
  | _ + 1, [], acc => some acc
  | fuel + 1, t :: q, acc =>
    if (List.range c).any (tree t) then
      udesLoop c tree u fuel (q ++ ((List.range c).map (fun b => if tree t b then 1 else 0)).filter (fun i => tree t i)) acc
    else udesLoop c tree u fuel q (acc + u t)

def udes (fuel c : Nat) (tree : Nat → Nat → Bool) (u : Nat → WithBot K) (j : Nat) : Option (WithBot K) := udesLoop c tree u fuel [j] 0

/-- `cal_Informativeness`, lines 355-377. `flag i j` is the result of `cal_relevance`, the sign of a majority vote. Line 376 assigns to a copy, so that the
entries of pairs which are not unlabelled stay 0. `none`: `cal_Udes` does not return. -/
def halcInfo (fuel c : Nat) (tree : Nat → Nat → Bool) (lab unlab : Nat → Nat → Bool) (w : Nat → K) (dv : Nat → Nat → K) (flag : Nat → Nat → Int) (i j : Nat) :
    Option (WithBot K) :=
  let u := halcUncertainty lab unlab w dv
  if unlab i j then
    if flag i j = 1 then some (u i j + u i j)
    else if flag i j = -1 then (udes fuel c tree (u i) j).map (fun d => u i j + d)
    else some 0
  else some 0

end Values

end Alipy.CostSensitive

import Verif.Model.CostSelect
/-!
# The knapsack with costs that are not integers: `alipy/query_strategy/cost_sensitive.py:27-65` and `427-468`, `609-653`

`Verif.Model.Knapsack` is the case of integer costs. Here a cost, and the capacity, is an integer or a float; a float cannot be the index of a numpy array (IndexError), and not a dimension
(TypeError).
-/
namespace Alipy.CostSensitive
open Alipy

/-- A Python number: an integer or a float (a rational number here). Elements of `costs` and `capacity`, cost_sensitive.py:27. -/
inductive Num where
  | int (z : Int)
  | float (q : ℚ)
  deriving DecidableEq, Repr

/-- The number itself, for the comparisons of cost_sensitive.py:56 and 62. -/
def Num.val : Num → ℚ
  | .int z => z
  | .float q => q

/-- Whether numpy makes an array of floats of it, cost_sensitive.py:428 and 610. -/
def Num.isFloat : Num → Bool
  | .int _ => false
  | .float _ => true

/-- `j - cost` for an integer `j`: a float if the cost is one. cost_sensitive.py:56, 59 and 62. -/
def Num.from (j : Int) : Num → Num
  | .int z => .int (j - z)
  | .float q => .float (j - q)

/-- `dp[i][x]`, cost_sensitive.py:59 and 62. -/
def atNum {K : Type} (row : List K) : Num → Except PyErr K
  | .int i => match pyAt row i with
    | none => .error .indexError
    | some x => .ok x
  | .float _ => .error .indexError

section
variable {K : Type} [AddCommMonoid K] [LinearOrder K]

/-- `dp[i+1][j]`, cost_sensitive.py:56-59. -/
def cellN (row : List K) (it : K × Num) (j : Nat) : Except PyErr K :=
  match pyAt row j with
  | none => .error .indexError
  | some old =>
    if (it.2.from j).val < 0 then .ok old
    else
      match atNum row (it.2.from j) with
      | .error e => .error e
      | .ok x => .ok (max old (x + it.1))

/-- The outer loop, cost_sensitive.py:54-59: all rows, the last one first. -/
def rowsN : List (K × Num) → List (List K) → Except PyErr (List (List K))
  | [], rs => .ok rs
  | it :: its, rs =>
    match (List.range (rs.headD []).length).mapM (cellN (rs.headD []) it) with
    | .error e => .error e
    | .ok r => rowsN its (r :: rs)

/-- The second loop, cost_sensitive.py:60-64. A float cost never gets as far as `j -= costs[i]`, so `j` stays an integer. -/
def tracebackN : List (K × Num) → List (List K) → Int → Except PyErr (List Bool)
  | [], _, _ => .ok []
  | it :: its, r1 :: r0 :: rs, j =>
    if (it.2.from j).val ≥ 0 then
      match pyAt r1 j, atNum r0 (it.2.from j), it.2.from j with
      | some a, .ok b, .int j' =>
        if a = b + it.1 then (tracebackN its (r0 :: rs) j').map (fun f => true :: f)
        else (tracebackN its (r0 :: rs) j).map (fun f => false :: f)
      | _, _, _ => .error .indexError
    else (tracebackN its (r0 :: rs) j).map (fun f => false :: f)
  | _ :: _, _, _ => .error .indexError

/-- `select_Knapsack_01`, cost_sensitive.py:27-65. -/
def knapsackN (vals : List K) (costs : List Num) : Num → Except PyErr (K × List Bool)
  | .float _ => if vals.length ≠ costs.length then .error .assertionError else .error .typeError
  | .int cap =>
    if vals.length ≠ costs.length then .error .assertionError
    else if cap + 1 < 0 then .error .valueError
    else
      match rowsN (vals.zip costs) [List.replicate (cap + 1).toNat 0] with
      | .error e => .error e
      | .ok rs =>
        match tracebackN (vals.zip costs).reverse rs cap with
        | .error e => .error e
        | .ok f =>
          match pyAt (rs.headD []) cap with
          | none => .error .indexError
          | some best => .ok (best, f.reverse)

/-- The dtype of an array of numbers: floats if one of them is a float. `np.asarray(cost)` and `np.r_`, cost_sensitive.py:428, 456 and 610, 644. -/
def npNums (l : List Num) : List Num := if l.any Num.isFloat then l.map (fun c => .float c.val) else l

/-- The selection of `QueryCostSensitiveHALC` and `QueryCostSensitivePerformance`, cost_sensitive.py:427-468 and 609-653, for costs given by the user. -/
def selectPairsN (c : Nat) (info : Nat → Nat → K) (order : Nat → List Nat) (costs : List Num) (budget : Nat) : Except PyErr (List (Nat × Nat)) :=
  if costs.length = c then
    match (List.range c).mapM (candidates order budget) with
    | .error e => .error e
    | .ok ls =>
      let pairs := ls.flatten
      match knapsackN (pairs.map (fun p => info p.1 p.2)) (pairs.map (fun p => (npNums costs).getD p.2 (.int 0))) (.int budget) with
      | .error e => .error e
      | .ok r => .ok (picked r.2 pairs)
  else .error .assertionError

end
end Alipy.CostSensitive

import Verif.Model.Split
import Mathlib.Algebra.Order.Field.Basic
import Mathlib.Algebra.Order.Monoid.WithTop
import Mathlib.Algebra.BigOperators.Group.List.Basic
/-!
# Selecting items under a budget: `alipy/query_strategy/cost_sensitive.py:27-149`

Values are elements of an ordered field; for the knapsack of any ordered additive monoid, so that minus infinity can be a value. A 0/1 vector of the
code is a list of booleans.
-/
namespace Alipy.CostSensitive
open Alipy

section Knapsack
variable {K : Type} [AddCommMonoid K] [LinearOrder K]

/-- An item: value and cost. cost_sensitive.py:51, 54 and 59. -/
abbrev Item (K : Type) := K × Int

/-- `dp[i+1][j]` from the row `dp[i]`, cost_sensitive.py:56-59. Python's indexing: negative positions count from the end. -/
def cell (row : List K) (it : Item K) (j : Nat) : Except PyErr K :=
  match pyAt row j with
  | none => .error .indexError
  | some old =>
    if (j : Int) - it.2 < 0 then .ok old
    else
      match pyAt row ((j : Int) - it.2) with
      | none => .error .indexError
      | some x => .ok (max old (x + it.1))

/-- The inner loop, cost_sensitive.py:55-59: the next row. -/
def nextRow (row : List K) (it : Item K) : Except PyErr (List K) := (List.range row.length).mapM (cell row it)

/-- The outer loop, cost_sensitive.py:54-59: all rows, the last one first. -/
def rows : List (Item K) → List (List K) → Except PyErr (List (List K))
  | [], rs => .ok rs
  | it :: its, rs =>
    match nextRow (rs.headD []) it with
    | .error e => .error e
    | .ok r => rows its (r :: rs)

/-- The second loop, cost_sensitive.py:60-64: items and rows, the last ones first; the flags of the items, the last one first. -/
def traceback : List (Item K) → List (List K) → Int → Except PyErr (List Bool)
  | [], _, _ => .ok []
  | it :: its, r1 :: r0 :: rs, j =>
    if j - it.2 ≥ 0 then
      match pyAt r1 j, pyAt r0 (j - it.2) with
      | some a, some b =>
        if a = b + it.1 then (traceback its (r0 :: rs) (j - it.2)).map (fun f => true :: f)
        else (traceback its (r0 :: rs) j).map (fun f => false :: f)
      | _, _ => .error .indexError
    else (traceback its (r0 :: rs) j).map (fun f => false :: f)
  | _ :: _, _, _ => .error .indexError

/-- `select_Knapsack_01`, cost_sensitive.py:27-65, for integer costs and an integer capacity; `np.zeros` raises for a negative number of columns. -/
def knapsack (vals : List K) (costs : List Int) (cap : Int) : Except PyErr (K × List Bool) :=
  if vals.length ≠ costs.length then .error .assertionError
  else if cap + 1 < 0 then .error .valueError
  else
    match rows (vals.zip costs) [List.replicate (cap + 1).toNat 0] with
    | .error e => .error e
    | .ok rs =>
      match traceback (vals.zip costs).reverse rs cap with
      | .error e => .error e
      | .ok f =>
        match pyAt (rs.headD []) cap with
        | none => .error .indexError
        | some best => .ok (best, f.reverse)

end Knapsack

/-! ## POSS -/
variable {K : Type} [Field K] [LinearOrder K]

/-- `np.sum(offspring * costs)` (cost_sensitive.py:117, 122). -/
def total (sel : List Bool) (l : List K) : K := (List.zipWith (fun (b : Bool) x => if b then x else 0) sel l).sum

/-- A member of the population with its fitness: value (`none`... here `⊤` for `np.infty`) and cost. cost_sensitive.py:101-107. -/
structure Member (K : Type) where
  sel : List Bool
  value : WithTop K
  cost : K

/-- The fitness of a new solution, cost_sensitive.py:116-122. -/
def evaluate (vals costs : List K) (budget : K) (sel : List Bool) : Member K :=
  { sel := sel, cost := total sel costs,
    value := if total sel costs = 0 ∨ budget < total sel costs then ⊤ else (total sel vals : K) }

/-- `np.abs(parent - mutation)` for 0/1 vectors, cost_sensitive.py:114 -/
def mutate (parent bits : List Bool) : List Bool := List.zipWith (fun a b => a != b) parent bits

/-- The new solution of a round: the parent is drawn out of the population, the bits to be changed are random. cost_sensitive.py:114. -/
def offspring (pop : List (Member K)) (draw : Nat × List Bool) : List Bool :=
  match pop[draw.1 % pop.length]? with
  | none => []
  | some p => mutate p.sel draw.2

/-- One round, cost_sensitive.py:114-142. -/
def possStep (vals costs : List K) (budget : K) (pop : List (Member K)) (draw : Nat × List Bool) : List (Member K) :=
  let o := evaluate vals costs budget (offspring pop draw)
  if pop.any (fun m => (decide (m.value < o.value) && decide (m.cost ≤ o.cost)) || (decide (m.value ≤ o.value) && decide (m.cost < o.cost))) then pop
  else pop.filter (fun m => !(decide (o.value ≤ m.value) && decide (o.cost ≤ m.cost))) ++ [o]

/-- The first population, cost_sensitive.py:101-107. -/
def possInit (n : Nat) : List (Member K) := [{ sel := List.replicate n false, value := ⊤, cost := 0 }]

/-- The populations after the rounds; the number of rounds (`T`, line 110) is the length of the list of draws. -/
def possRun (vals costs : List K) (budget : K) (draws : List (Nat × List Bool)) : List (Member K) :=
  draws.foldl (possStep vals costs budget) (possInit vals.length)

/-- `np.argmin`: the first position of the smallest entry. cost_sensitive.py:145. -/
def argminPos {β : Type} [LinearOrder β] (l : List β) : Nat := l.findIdx (fun v => l.all (fun w => decide (v ≤ w)))

/-- `select_POSS`, cost_sensitive.py:67-149. The position found among the solutions within the budget is used as a position in the population. -/
def poss (vals costs : List K) (budget : K) (draws : List (Nat × List Bool)) : Except PyErr (WithTop K × List Bool) :=
  if vals.length ≠ costs.length then .error .assertionError
  else
    let pop := possRun vals costs budget draws
    let ok := pop.filter (fun m => decide (m.cost ≤ budget))
    if ok.isEmpty then .error .valueError
    else
      match pop[argminPos (ok.map (fun m => m.value))]? with
      | none => .error .indexError
      | some m => .ok (m.value, m.sel)

/-- The solutions generated during a run, for stating the property. The values of `offspring`, cost_sensitive.py:114. -/
def generated (vals costs : List K) (budget : K) : List (Member K) → List (Nat × List Bool) → List (List Bool)
  | _, [] => []
  | pop, d :: ds => offspring pop d :: generated vals costs budget (possStep vals costs budget pop d) ds

end Alipy.CostSensitive

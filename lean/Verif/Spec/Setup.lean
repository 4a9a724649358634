import Verif.Model.Setup

/-! What the settings of an experiment are, from the history of calls. -/
namespace Alipy.Spec
open Alipy Setup

variable {ι ρ : Type}

/-- No call of the history has raised. -/
def NoneRaised (e : Exp ι ρ) : List (Call ι ρ) → Prop
  | [] => True
  | c :: h => (exec e c).2 = none ∧ NoneRaised (exec e c).1 h

/-- The last metric of the history, `d` if there is none. -/
def lastMetric (d : Option String) : List (Call ι ρ) → Option String
  | [] => d
  | .metric m :: h => lastMetric (some m) h
  | _ :: h => lastMetric d h

/-- The last split of the history, `d` if there is none. -/
def lastSplit (d : Option (Idx ι)) : List (Call ι ρ) → Option (Idx ι)
  | [] => d
  | .data s :: h => lastSplit (some s) h
  | .splitAL _ (.ok s) :: h => lastSplit (some s) h
  | _ :: h => lastSplit d h

/-- The last strategy of the history, `d` if there is none. -/
def lastStrategy (d : Option Strategy) : List (Call ι ρ) → Option Strategy
  | [] => d
  | .strategy s _ :: h => lastStrategy (some s) h
  | _ :: h => lastStrategy d h

/-- How a strategy has to be used: a user-defined one with the keyword arguments given with it; a predefined one with those of the loop. -/
def properUse : Strategy → Used
  | .custom cls args => .obj (.custom cls args) (some args)
  | .named name args => if name = "QueryInstanceGraphDensity" ∨ name = "QueryInstanceQUIRE" then .fresh name args else .obj (.named name args) none

/-- No user-defined strategy is followed by a predefined one. -/
def NotBack : List (Call ι ρ) → Prop
  | [] => True
  | .strategy (.custom _ _) _ :: h => (∀ name args f, Call.strategy (.named name args) f ∉ h) ∧ NotBack h
  | _ :: h => NotBack h

/-- The results of the history are those of the rounds of `run` with the strategy, the metric and the split given: one for every round. -/
def RunsWith (run : Nat → Config ι → ρ × Option PyErr) (s : Strategy) (m : String) (d : Idx ι) (rs : List ρ) : Prop :=
  rs.length = d.train.length ∧ ∀ k (r : ρ), rs[k]? = some r → ∃ a b c u, d.train[k]? = some a ∧ d.test[k]? = some b ∧ d.lab[k]? = some c ∧ d.unl[k]? = some u ∧
    r = (run k ⟨.ok (properUse s), m, a, b, c, u⟩).1

end Alipy.Spec

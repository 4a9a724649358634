import Verif.Model.State
import Verif.Model.Repository
/-! What it means that something is done in one call or in several. -/
namespace Alipy.Spec

/-- A call, and if it has not raised, another one. -/
def andThen {σ : Type} (r : σ × Option PyErr) (f : σ → σ × Option PyErr) : σ × Option PyErr :=
  match r with
  | (o, none) => f o
  | (o, some e) => (o, some e)

/-- Two answers, one after the other; the first exception if there is one. -/
def inTurn {α β : Type} (r s : Except PyErr (List α × List β)) : Except PyErr (List α × List β) :=
  match r, s with
  | .ok (a, b), .ok (c, d) => .ok (a ++ c, b ++ d)
  | .error e, _ => .error e
  | _, .error e => .error e

/-- An optional list for both of two calls. -/
def both {α : Type} : Option (List α) → Option (List α) → Option (List α)
  | some a, some b => some (a ++ b)
  | _, _ => none

/-- The optional list, if given, has one entry for each of `n` objects. -/
def FitsCall {α : Type} (n : Nat) (l : Option (List α)) : Prop := ∀ x, l = some x → x.length = n

/-- A repository without its record of the calls. -/
def eContent {κ β χ : Type} (o : ERepo κ β χ) : ERepo κ β χ := { o with numQueries := 0, history := [] }

/-- A repository without its record of the calls. -/
def mContent {κ γ : Type} (o : MRepo κ γ) : MRepo κ γ := { o with numQueries := 0, history := [] }

/-- The oracles with the given names are asked one after the other, until one of them raises. -/
def oneByOne {β ι : Type} (pick : List String → String) (q : ι) : List String → Oracles β ι → Oracles β ι × Except PyErr (List (Answer β))
  | [], o => (o, .ok [])
  | n :: ns, o =>
    match o.queryFrom pick q (some n) with
    | (o', .error e) => (o', .error e)
    | (o', .ok a) =>
      match oneByOne pick q ns o' with
      | (o'', .error e) => (o'', .error e)
      | (o'', .ok as) => (o'', .ok (a :: as))

/-- A saved state with a selection and, if given, its costs. -/
def record (s : List Val) (perf : Obj (List Val)) (cost : Option (List ℚ)) : Entry (List Val) :=
  .st (State.new icOps (.inr s) perf none (cost.map .arr))

end Alipy.Spec

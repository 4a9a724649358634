import Verif.Spec.Select
import Verif.Spec.Vote
import Mathlib.Algebra.BigOperators.Group.List.Basic

/-! # Labelling with several noisy oracles -/
namespace Alipy.Spec

/-- `x` is a member of `u` whose largest predicted probability is the smallest one; the rows of `rows` belong to the members of `u`. -/
def LeastSure {α K : Type} [LE K] (u : List α) (rows : List (List K)) (x : α) : Prop :=
  ∃ (i : Nat) (r : List K), u[i]? = some x ∧ rows[i]? = some r ∧
    ∀ (j : Nat) (r' : List K), rows[j]? = some r' → ∀ t t', IsTop r t → IsTop r' t' → t ≤ t'

/-- The answers of the oracles `ns` on `k`, where `ans n k` is what oracle `n` answers: a label and its cost. -/
def ballot {ν κ β : Type} (ans : ν → κ → β × ℚ) (k : κ) (ns : List ν) : List β := ns.map (fun n => (ans n k).1)

/-- What asking the oracles `ns` about `k` costs. -/
def bill {ν κ β : Type} (ans : ν → κ → β × ℚ) (k : κ) (ns : List ν) : ℚ := (ns.map (fun n => (ans n k).2)).sum

/-- `n` rounds have turned the unlabelled set `u` into `u'` and bought the labels `new`, spending `spent`: the bought examples and the rest
are together the unlabelled ones, every label is the winner of the votes of the oracles `who k` asked about it, and the costs of all of
them have been paid. -/
structure BoughtByVote {ν κ β : Type} [DecidableEq β] (ans : ν → κ → β × ℚ) (who : κ → List ν) (n : Nat) (u u' : List κ) (new : List (κ × β))
    (spent : ℚ) : Prop where
  count : new.length = n
  split : (new.map Prod.fst ++ u').Perm u
  winner : ∀ p ∈ new, Winner (ballot ans p.1 (who p.1)) p.2
  paid : spent = (new.map (fun p => bill ans p.1 (who p.1))).sum

end Alipy.Spec

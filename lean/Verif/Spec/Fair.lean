import Verif.Model.Split
import Mathlib.Logic.Equiv.Fin.Basic
import Mathlib.SetTheory.Cardinal.Finite
import Mathlib.Data.Fintype.Defs
/-! What it means that a split or a random selection is fair: `np.random.shuffle` brings about every permutation with the same probability, so
that the probability of an event is the number of permutations that bring it about, divided by the number of all permutations. -/
namespace Alipy.Spec

/-- The effect of a permutation of the positions. -/
def shuffleBy {n : Nat} {β : Type} (σ : Equiv.Perm (Fin n)) (l : List β) : List β :=
  if h : l.length = n then List.ofFn (fun i => l.get (Fin.cast h.symm (σ i))) else l

/-- The number of permutations of `n` positions that bring about an event. -/
noncomputable def ways {n : Nat} (E : Equiv.Perm (Fin n) → Prop) : Nat := Nat.card {σ // E σ}

/-- The number of ways to draw `m` permutations and then another one that bring about an event. -/
noncomputable def drawWays {n : Nat} (m : Nat) (E : (Fin m → Equiv.Perm (Fin n)) → Equiv.Perm (Fin n) → Prop) : Nat :=
  Nat.card {q : (Fin m → Equiv.Perm (Fin n)) × Equiv.Perm (Fin n) // E q.1 q.2}

/-- The role of an instance. -/
inductive Role where
  | labelled | unlabelled | test
  deriving DecidableEq

instance : Fintype Role := ⟨{.labelled, .unlabelled, .test}, fun x => by cases x <;> decide⟩

/-- The split gives every instance the role it has in `d`. -/
def Assigns (r : Round Int) (d : Int → Role) : Prop :=
  (∀ x ∈ r.label, d x = .labelled) ∧ (∀ x ∈ r.unlabel, d x = .unlabelled) ∧ (∀ x ∈ r.test, d x = .test)

/-- How many of the instances have a role. -/
def withRole (names : List Int) (d : Int → Role) (p : Role) : Nat := names.countP (fun x => decide (d x = p))

end Alipy.Spec

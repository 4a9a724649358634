import Verif.Model.Misc
import Verif.Spec.Sampling
/-! What it means that examples that were not selected could have been left out of the pool. -/
namespace Alipy.Spec

/-- The strategy can select the examples of `S`: some way of sorting (`np.argsort`; equal scores may come in any order) makes it return them,
in some order. -/
def CanSelect {α K : Type} [LE K] (sel : (List K → List Nat) → Except PyErr (List α)) (S : List α) : Prop :=
  ∃ (argsort : List K → List Nat) (r : List α), (∀ l, _root_.Spec.IsArgsort l (argsort l)) ∧ sel argsort = .ok r ∧ r.Perm S

/-- A strategy, as a function of the pool and of the way of sorting, is consistent on smaller pools: if something it can select from a pool is still there
in a smaller one, then from the smaller pool it can select exactly what it can select from the whole one and is still there. -/
def ConsistentOnPools {α κ K : Type} [LE K] (items : κ → List α) (sel : κ → (List K → List Nat) → Except PyErr (List α)) : Prop :=
  ∀ u u' : κ, (items u).Nodup → (items u').Nodup → (∀ x ∈ items u', x ∈ items u) → ∀ S, CanSelect (sel u) S → (∀ x ∈ S, x ∈ items u') →
    ∀ S', CanSelect (sel u') S' ↔ CanSelect (sel u) S' ∧ ∀ x ∈ S', x ∈ items u'

/-- A strategy can work in pieces: if the pool is divided and from each piece what can be selected is kept, then everything that can be selected from what was
kept can be selected from the whole pool. -/
def Piecewise {α κ K : Type} [LE K] (items : κ → List α) (sel : κ → (List K → List Nat) → Except PyErr (List α)) : Prop :=
  ∀ (u w : κ) (pieces : List κ) (kept : List (List α)), (items u).Nodup → (items w).Nodup → (∀ p ∈ pieces, (items p).Nodup) →
    (∀ x, x ∈ items u ↔ ∃ p ∈ pieces, x ∈ items p) → List.Forall₂ (fun p s => CanSelect (sel p) s) pieces kept →
    (∀ x, x ∈ items w ↔ ∃ s ∈ kept, x ∈ s) → ∀ S, CanSelect (sel w) S → CanSelect (sel u) S

end Alipy.Spec

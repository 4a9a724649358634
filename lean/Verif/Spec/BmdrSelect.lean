import Verif.Spec.Select
import Verif.Spec.Admm
import Mathlib.Topology.Instances.Real.Lemmas
/-!
# What is expected of the rounds of BMDR and SPAL
-/
namespace Alipy.Spec

/-- `r` is a batch of `u` with the largest weights; `w` are the weights by position. -/
def Heaviest {α K : Type} [LE K] (u : List α) (w : List K) (b : Int) (r : List α) : Prop :=
  BatchOf u b r ∧ ∀ (i j : Nat) (x y : α) (p q : K), u[i]? = some x → u[j]? = some y → w[i]? = some p → w[j]? = some q → x ∈ r → y ∉ r → q ≤ p

/-- Two lists with the same members. -/
def SameMembers {α : Type} (a b : List α) : Prop := ∀ x, x ∈ a ↔ x ∈ b

/-- A run of `k + 1` rounds ending with `r`: every round selects the heaviest examples with the weights of its state; the first round with the same selection as the one before it is the last
one, and so is the sixteenth. -/
def Run {α K σ : Type} [LE K] (u : List α) (b : Int) (weights : σ → List K) (next : σ → List α → σ) (st : Nat → σ) (sel : Nat → List α) (k : Nat) (r : List α) : Prop :=
  (∀ i ≤ k, Heaviest u (weights (st i)) b (sel i)) ∧ (∀ i < k, st (i + 1) = next (st i) (sel i)) ∧ r = sel k ∧ k ≤ 15 ∧
  (k = 15 ∨ ∃ j, k = j + 1 ∧ SameMembers (sel j) (sel k)) ∧ ∀ j, j + 1 < k → ¬ SameMembers (sel j) (sel (j + 1))

open Matrix in
/-- The alternating directions: in each round the model minimises the augmented Lagrangian, then the auxiliary variable does, then the dual variable goes up by `rho` times what is left of the
constraint. -/
def Alternates {ι κ : Type} [Fintype ι] [Fintype κ] (KLL : Matrix ι ι ℝ) (Q : Matrix ι κ ℝ) (gamma rho : ℝ) (w : κ → ℝ) (y : ι → ℝ) (t : ℕ → ι → ℝ) (z d : ℕ → κ → ℝ) : Prop :=
  ∀ k, (∀ t', lagrangian KLL Q gamma rho w y (t (k + 1)) (z k) (d k) ≤ lagrangian KLL Q gamma rho w y t' (z k) (d k)) ∧
    (∀ z', lagrangian KLL Q gamma rho w y (t (k + 1)) (z (k + 1)) (d k) ≤ lagrangian KLL Q gamma rho w y (t (k + 1)) z' (d k)) ∧
    ∀ j, d (k + 1) j = d k j + rho * (z (k + 1) j - (t (k + 1) ᵥ* Q) j)

/-- The loss of the kernel model `tau` on the labelled examples `lab`, plus the worst losses of the examples `l`, each with its weight. -/
noncomputable def trainLoss {α : Type} {a : ℕ} (K : α → α → ℝ) (lab : Fin a → α) (y : α → ℝ) (gamma : ℝ) (l : List (ℝ × α)) (tau : Fin a → ℝ) : ℝ :=
  ∑ i, (y (lab i) - ∑ j, K (lab i) (lab j) * tau j) ^ 2 + gamma * ∑ i, ∑ j, tau i * tau j * K (lab i) (lab j) +
    (l.map fun p => p.1 * ((∑ i, tau i * K (lab i) p.2) ^ 2 + 2 * |∑ i, tau i * K (lab i) p.2|)).sum

end Alipy.Spec

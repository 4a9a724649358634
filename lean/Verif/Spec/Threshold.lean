import Verif.Spec.Vote
import Mathlib.Algebra.Order.Field.Basic
/-!
# What the choice of oracles by threshold is meant to be
-/
namespace Alipy.Spec

/-- `sel` are the positions (in increasing order) of the scores that are at least `eps` times the largest score; the position of
every largest score is among them. -/
def AboveThreshold {K : Type} [Mul K] [LE K] (us : List K) (eps : K) (sel : List Nat) : Prop :=
  sel.Pairwise (· < ·) ∧ ∃ m ∈ us, (∀ a ∈ us, a ≤ m) ∧ (∀ i, i ∈ sel ↔ ∃ a, us[i]? = some a ∧ eps * m ≤ a) ∧
    ∀ i, us[i]? = some m → i ∈ sel

/-- How often oracle `i` agreed with the winner of the votes it took part in: one entry per vote, 1 for agreement. `log` lists the
instances with the oracles asked, `ans` the answers of the oracles. -/
def Agreement {β κ K : Type} [DecidableEq β] [Zero K] [One K] (ans : Nat → κ → β) (i : Nat) (log : List (κ × List Nat)) (rs : List K) : Prop :=
  List.Forall₂ (fun (e : κ × List Nat) r => ∃ l, Winner (e.2.map (fun j => ans j e.1)) l ∧ r = if ans i e.1 = l then 1 else 0)
    (log.filter (fun e => i ∈ e.2)) rs

/-- The evaluation of a pair of example and oracle: the sum of the distances of the neighbours labelled correctly divided by the number
of neighbours, times the uncertainty, divided by the cost (at least 0.0001). -/
def quality {K : Type} [Field K] [LinearOrder K] (dist : List K) (right : List Bool) (uncertainty cost : K) : K :=
  (((dist.zip right).filter Prod.snd).map Prod.fst).sum / dist.length * uncertainty / max cost (1 / 10000)

end Alipy.Spec

import Mathlib.Algebra.Order.Field.Basic
import Mathlib.Algebra.BigOperators.Group.List.Basic
/-!
# Curves of performance against cost
-/
namespace Alipy.Spec

variable {K : Type} [Field K] [LinearOrder K]

/-- The points (cumulative cost, performance) of queries with these costs and performances, `c` having been spent before. -/
def costPoints (c : K) : List (K × K) → List (K × K)
  | [] => []
  | (k, p) :: l => (c + k, p) :: costPoints (c + k) l

/-- `(t, v)` lies on the polygonal line through the points. -/
def OnPolyline (pts : List (K × K)) (t v : K) : Prop :=
  (∃ p ∈ pts, t = p.1 ∧ v = p.2) ∨
  ∃ l r a b, pts = l ++ a :: b :: r ∧ a.1 ≤ t ∧ t ≤ b.1 ∧ (v - a.2) * (b.1 - a.1) = (b.2 - a.2) * (t - a.1)

/-- `v` is the mean of the heights of the polygonal lines at `t`. -/
def MeanHeight (lines : List (List (K × K))) (t v : K) : Prop :=
  ∃ vs : List K, List.Forall₂ (fun p w => OnPolyline p t w) lines vs ∧ v = vs.sum / vs.length

/-- The points drawn for the polygonal lines: at `x0`, `x0 + step`, ... below `stop`, `x0` being where the last of them begins, all moved by `shift`. -/
def MeanCurve (lines : List (List (K × K))) (stop step shift : K) (drawn : List (K × K)) : Prop :=
  ∃ x0, (∃ l ∈ lines, ∃ p, l.head? = some p ∧ p.1 = x0) ∧ (∀ l ∈ lines, ∀ p, l.head? = some p → p.1 ≤ x0) ∧
    (drawn.map Prod.fst).Pairwise (· < ·) ∧
    (∀ x, x ∈ drawn.map Prod.fst ↔ ∃ j : Nat, x = x0 + j * step + shift ∧ x0 + j * step < stop) ∧
    ∀ x v, (x, v) ∈ drawn → MeanHeight lines (x - shift) v

end Alipy.Spec

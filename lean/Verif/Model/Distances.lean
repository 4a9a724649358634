import Mathlib.Analysis.Real.Sqrt
import Mathlib.Algebra.BigOperators.Group.Finset.Basic
/-!
# The distances of coreset selection and density weighting

`sklearn.metrics.pairwise.pairwise_distances(X, Y, metric)` as called in `alipy/query_strategy/query_labels.py` lines 1838 (coreset) and 1952 (density weighting). The metrics that density weighting accepts
(line 1914): `'l2'` is another name for `'euclidean'`, and `'l1'` and `'manhattan'` are other names for `'cityblock'`. Real numbers instead of floats; `φ` are the features.
-/
namespace Alipy.Distances

variable {φ : Type} [Fintype φ]

/-- The argument `metric`, query_labels.py line 1914. -/
inductive Metric where
  | euclidean | cityblock | cosine
  deriving DecidableEq

/-- A row divided by its norm, unless that is zero (`sklearn.preprocessing.normalize`), for `metric='cosine'`, query_labels.py lines 1838 and 1952. -/
noncomputable def normalize (x : φ → ℝ) : φ → ℝ :=
  let r := Real.sqrt (∑ f, x f ^ 2)
  fun f => x f / if r = 0 then 1 else r

/-- One entry of `pairwise_distances(X, Y, metric)`, query_labels.py lines 1838 and 1952: squared distances from inner products, cut at zero; one minus the product of the normalised rows, clipped to `[0, 2]`. -/
noncomputable def dist (m : Metric) (x y : φ → ℝ) : ℝ :=
  match m with
  | .euclidean => Real.sqrt (max (-2 * (∑ f, x f * y f) + ∑ f, x f ^ 2 + ∑ f, y f ^ 2) 0)
  | .cityblock => ∑ f, |x f - y f|
  | .cosine => min (max (1 - ∑ f, normalize x f * normalize y f) 0) 2

/-- `pairwise_distances(X, metric)` of the rows `X a` for `a` in `u`, query_labels.py line 1952: the diagonal is zero. -/
noncomputable def matrix {α : Type} [DecidableEq α] (m : Metric) (X : α → φ → ℝ) (u : List α) : List (List ℝ) :=
  u.mapIdx (fun i a => u.mapIdx (fun j b => if i = j then 0 else dist m (X a) (X b)))

end Alipy.Distances

import Verif.Spec.Metrics
/-!
# The arguments of a metric as tables over examples and labels

The examples are a list `l` of anything, the labels a list `J` of anything; what the metric gets are the values of functions of an example, or
of an example and a label. Listing the examples or the labels in another order is a permutation of `l` or of `J`.
-/
namespace Alipy.Spec

/-- `sample_weight`: the weight of each example, or nothing. -/
def weightsOf {ι : Type} (w : Option (ι → ℚ)) (l : List ι) : Option (List ℚ) := w.map (fun f => l.map f)

/-- The two-dimensional array with a row for every example and a column for every label. -/
def tableOf {ι κ α : Type} (f : ι → κ → α) (l : List ι) (J : List κ) : List (List α) := l.map (fun i => J.map (f i))

end Alipy.Spec

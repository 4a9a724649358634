import Verif.Model.Completion
/-!
# Successive calls of `QueryFeatureAFASMC.select`
-/
namespace Alipy.Features
variable {K : Type} {r c : Nat}

/-- `QueryFeatureAFASMC.select` with training indexes given: the completed matrices kept by the object afterwards (`_feature_variance`), and the result. A call with at most one
unknown entry, or one that fails before the completion, keeps nothing. query_features.py lines 444-479. -/
def afasmcCall [Field K] [LinearOrder K] (complete : Mat r c K → Mat r c K → Except PyErr (Mat r c K)) (X : Mat r c K) (cmp : Int × Nat → Bool) (train : List Int)
    (ht : train.length = r) (hist : List (Mat r c K)) (observed unknown : List (Int × Nat)) : List (Mat r c K) × Except PyErr (List (Int × Nat)) :=
  if unknown.length ≤ 1 then (hist, .ok unknown)
  else
    match mapEntries cmp train observed with
    | .error e => (hist, .error e)
    | .ok es =>
      match afasmcMats complete X hist (maskOf r c es) with
      | .error e => (hist, .error e)
      | .ok ms =>
        match chooseCell ms (maskOf r c es) with
        | .error e => (ms, .error e)
        | .ok p => (ms, .ok [(train.get (p.1.cast ht.symm), p.2)])

end Alipy.Features

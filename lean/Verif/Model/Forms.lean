import Verif.Model.MultiLabelSelect

/-! The forms in which pairs are handed over for feature querying. -/
namespace Alipy.Forms
open Alipy.MLIC Alipy.MLSelect

/-- `FeatureIndexCollection(data, feature_size)` with a list, index_collections.py lines 663-667: the constructor of the
parent class, every exception replaced by one plain `Exception`. -/
def featureMk (items : List Item) (size : Option Int) : Except PyErr MLIC :=
  match mk' items size with
  | .ok c => .ok c
  | .error _ => .error .genericException

/-- `_check_feature_ind`, base.py lines 142-154, for a feature matrix of `n` rows and `d` columns. A collection is handed on
as it is, without the copy of `_check_multi_label_ind`. -/
def checkFeature (n d : Nat) : PairArg → Except PyErr MLIC
  | .coll c => .ok c
  | .tuples [] => .error .valueError
  | .tuples items =>
    match mk' items (some (d : Int)) with
    | .ok c => .ok c
    | .error _ => .error .valueError
  | .flat [] => .error .valueError
  | .flat ks =>
    match by1d ks n d .F with
    | .ok c => .ok c
    | .error _ => .error .valueError

end Alipy.Forms

import Verif.Model.Forms
import Verif.Model.Params

/-! The collections made by the toolbox: `alipy/toolbox.py` lines 545-576. -/
namespace Alipy.Forms
open Alipy.MLIC Alipy.MLSelect

/-- The signature of `construct_by_1d_array`, index_collections.py line 543. -/
def by1dSig : Params.Sig := ⟨[("array", none), ("label_mat_shape", none), ("order", some (.str "F"))], false⟩

/-- The keyword arguments the toolbox calls it with, toolbox.py lines 574-576. The values are not looked into here. -/
def toolboxArgs : Params.Kw := [("data", .obj 0 false), ("label_mat_shape", .obj 1 false), ("order", .obj 2 false)]

/-- `ToolBox.MultiLabelIndexCollection(array, label_mat_shape, order)`, toolbox.py lines 549-576, for a toolbox whose label matrix has the shape `(n, m)`. `array[0]` of an empty list or array raises
IndexError. A collection has no `[0]` (TypeError). -/
def toolCollection (n m : Nat) (arg : PairArg) (shape : Option (Nat × Nat)) (o : Order) : Except PyErr MLIC :=
  let s := shape.getD (n, m)
  match arg with
  | .coll _ => .error .typeError
  | .tuples [] => .error .indexError
  | .tuples items => mk' items (some (s.2 : Int))
  | .flat [] => .error .indexError
  | .flat ks =>
    match Params.call by1dSig [] toolboxArgs with
    | .error e => .error e
    | .ok _ => by1d ks s.1 s.2 o

end Alipy.Forms

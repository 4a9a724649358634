import Verif.Model.Completion
import Verif.Model.MultiLabelSelect
import Mathlib.Algebra.Field.Basic

/-! # `AFASMC_mc` of `alipy/query_strategy/query_features.py` (lines 73-130): completion with the observed entries given by their indexes -/
namespace Alipy.CompletionForms
open Alipy.MLIC Alipy.MLSelect Alipy.Features

/-- Lines 116-126: `omega` as a collection. Every exception of the two constructors, and that of `omega[0]` for an empty list or array, becomes ValueError. -/
def readOmega (n d : Nat) : PairArg → Except PyErr MLIC
  | .coll c => .ok c
  | .tuples [] => .error .valueError
  | .tuples items =>
    match mk' items (some (d : Int)) with
    | .ok c => .ok c
    | .error _ => .error .valueError
  | .flat [] => .error .valueError
  | .flat ks =>
    match by1d ks n d .F with
    | .ok c => .ok c
    | .error _ => .error .valueError

/-- The entries of the mask of line 128 as numbers, as `obrT * X` (line 185) reads them. -/
def asMat {K : Type} [IntCast K] (n d : Nat) (m : List (List Int)) : Mat n d K := fun i j => (((m.getD i []).getD j 0 : Int) : K)

/-- `AFASMC_mc(X, y, omega, **kwargs)`, lines 112-130. `complete` computes `Xmc` from the mask and the observed part of `X`; the labels and the keyword arguments are part of it. The mask of line
128 is not checked (line 130). -/
def afasmcMc {K : Type} [Field K] [DecidableEq K] {n d : Nat} (complete : Mat n d K → Mat n d K → Except PyErr (Mat n d K)) (X : Mat n d K) (omega : PairArg) : Except PyErr (Mat n d K) :=
  match readOmega n d omega with
  | .error e => .error e
  | .ok c =>
    match c.matrixMask n d 1 false with
    | .error e => .error e
    | .ok m => afasmc false (complete (asMat n d m)) X (asMat n d m)

end Alipy.CompletionForms

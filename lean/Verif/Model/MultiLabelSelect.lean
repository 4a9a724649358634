import Verif.Model.MultiLabel
import Verif.Model.Misc
import Mathlib.Algebra.Order.Field.Basic

/-!
# Model of the strategies that select instance-label pairs

`alipy/query_strategy/multi_label.py`: `QueryMultiLabelQUIRE.select` (lines 431-499, the choice; its values are a parameter here),
`QueryMultiLabelAUDI.select` (lines 534-606), `QueryMultiLabelRandom.select` (lines 1163-1203);
`alipy/query_strategy/query_type.py`: `QueryTypeAURO.select` (lines 98-172);
`alipy/query_strategy/base.py`: `BaseMultiLabelQuery._check_multi_label_ind` (lines 72-86).

The label ranking model works row by row (`lr_predict`, multi_label.py lines 246-263), so its output is a function `pres` of the
instance and the column; column `L` is the dummy label. It is a parameter with arbitrary values, infinities and NaN included.
-/
namespace Alipy.MLSelect
open Alipy.MLIC

/-- Floating point numbers with exact arithmetic on the finite ones. multi_label.py lines 582, 591 and 595. -/
inductive EF (K : Type) where
  | num (x : K)
  | pinf
  | ninf
  | nan
  deriving DecidableEq, Repr

namespace EF
variable {K : Type}

def isNan : EF K → Bool
  | .nan => true
  | _ => false

/-- `a - b`. multi_label.py line 595. -/
def sub [Sub K] : EF K → EF K → EF K
  | .num x, .num y => .num (x - y)
  | .nan, _ => .nan
  | _, .nan => .nan
  | .pinf, .pinf => .nan
  | .ninf, .ninf => .nan
  | .pinf, _ => .pinf
  | .ninf, _ => .ninf
  | .num _, .pinf => .ninf
  | .num _, .ninf => .pinf

/-- `np.abs`. multi_label.py line 595. -/
def abs [Lattice K] [AddGroup K] : EF K → EF K
  | .num x => .num |x|
  | .nan => .nan
  | _ => .pinf

/-- The order used by numpy's sorting functions: NaN comes last. -/
protected def le [LE K] : EF K → EF K → Prop
  | _, .nan => True
  | .nan, _ => False
  | .ninf, _ => True
  | _, .ninf => False
  | _, .pinf => True
  | .pinf, _ => False
  | .num x, .num y => x ≤ y

instance [LE K] : LE (EF K) := ⟨EF.le⟩

instance [LE K] [DecidableLE K] : DecidableLE (EF K) := fun a b => by
  show Decidable (EF.le a b)
  cases a <;> cases b <;> unfold EF.le <;> infer_instance

/-- `a > b`; false as soon as one of them is NaN. multi_label.py line 255. -/
def gt [LE K] [DecidableLE K] (a b : EF K) : Bool := !a.isNan && !b.isNan && !decide (a ≤ b)

end EF

variable {K : Type}

/-- `np.argmin`: the first NaN if there is one, else the first smallest entry; `none`: empty array (ValueError). multi_label.py lines 583 and 596. -/
def argmin [LE K] [DecidableLE K] (l : List (EF K)) : Option Nat :=
  match l.findIdx? EF.isNan with
  | some i => some i
  | none => l.findIdx? (fun x => l.all (fun y => decide (x ≤ y)))

/-- `np.argmax`: the first NaN if there is one, else the first largest entry. query_type.py lines 147-170. -/
def argmax [LE K] [DecidableLE K] (l : List (EF K)) : Option Nat :=
  match l.findIdx? EF.isNan with
  | some i => some i
  | none => l.findIdx? (fun x => l.all (fun y => decide (y ≤ x)))

/-- An argument `label_index` / `unlabel_index`: a collection, a list whose first item is a tuple, a list of integers. base.py lines 74-79. -/
inductive PairArg where
  | coll (c : MLIC)
  | tuples (items : List Item)
  | flat (ks : List Int)

/-- `len(unlabel_index)`. multi_label.py lines 452, 561, 1189 and 1196. -/
def PairArg.len : PairArg → Nat
  | .coll c => c.inner.length
  | .tuples l => l.length
  | .flat l => l.length

/-- `_check_multi_label_ind`, base.py lines 72-86, for a label matrix of `n` rows and `L` columns. Every exception becomes a
ValueError. The shallow copy of line 86 shares the set, but the strategies of this file do not change it. -/
def checkInd (n L : Nat) : PairArg → Except PyErr MLIC
  | .coll c => .ok c
  | .tuples [] => .error .valueError
  | .tuples items =>
    match mk' items (some (L : Int)) with
    | .ok c => .ok c
    | .error _ => .error .valueError
  | .flat [] => .error .valueError
  | .flat ks =>
    match by1d ks n L .F with
    | .ok c => .ok c
    | .error _ => .error .valueError

/-- What the strategies return: the argument itself, or a list of pairs. multi_label.py lines 562 and 606. -/
inductive Sel where
  | whole
  | pairs (l : List (Int × Int))
  deriving DecidableEq, Repr

/-! ## AUDI -/

/-- The choice of the label, multi_label.py lines 589-603: labels whose entry is known get `-inf`; the label closest to the dummy
label is taken; if its entry is known, the closest one with an unknown entry. -/
def audiLabel [Field K] [LinearOrder K] (argsort : List (EF K) → List Nat) (L : Nat) (known : Nat → Bool) (row : Nat → EF K) : Except PyErr Nat :=
  let dis := (List.range L).map (fun j => EF.abs (EF.sub (if known j then .ninf else row j) (row L)))
  match argmin dis with
  | none => .error .valueError
  | some s =>
    if known s then
      match (argsort dis).find? (fun j => !known j) with
      | some j => .ok j
      | none => .ok s
    else .ok s

/-- `np.sum(labels == 1, axis=1)` for one row: the labels predicted above the dummy label (`lr_predict`, lines 241-257). -/
def predictedCount [LE K] [DecidableLE K] (L : Nat) (row : Nat → EF K) : Nat :=
  ((List.range L).filter (fun j => (row j).gt (row L))).length

/-- `np.sum(self.y[us, :] == 1, axis=1)`, line 581. -/
def ones (Y : List (List Int)) : List Int → Except PyErr (List Nat)
  | [] => .ok []
  | e :: es =>
    match pyRow Y e with
    | none => .error .indexError
    | some r =>
      match ones Y es with
      | .error err => .error err
      | .ok l => .ok ((r.filter (fun y => decide (y = 1))).length :: l)

/-- `np.mean`, line 581; NaN (`none`) for an empty array. -/
def meanNat [Field K] (l : List Nat) : Option K :=
  if l.isEmpty then none else some ((l.sum : K) / (l.length : K))

/-- One entry of `insvals`, line 582. -/
def insval [Field K] [LinearOrder K] (L : Nat) (row : Nat → EF K) (avg : Option K) (unknown : Nat) (eps : K) : EF K :=
  match avg with
  | none => .nan
  | some a => .num (-|((predictedCount L row : K) - a) / max (unknown : K) eps|)

/-- Row `e` of the mask (dense, 0/1). multi_label.py lines 567, 582 and 589. -/
def maskRow (W : List (List Int)) (e : Int) : List Int := (pyRow W e).getD []

/-- `QueryMultiLabelAUDI.select`, lines 561-606. `fit` stands for lines 568-580: the training of the model (which may raise) and its
predictions. -/
def audi [Field K] [LinearOrder K] (argsort : List (EF K) → List Nat) (fit : MLIC → Except PyErr (Int → Nat → EF K)) (Y : List (List Int)) (L : Nat)
    (eps : K) (lab unl : PairArg) : Except PyErr Sel :=
  if unl.len ≤ 1 then .ok .whole
  else
    match checkInd Y.length L unl with
    | .error e => .error e
    | .ok u =>
    match checkInd Y.length L lab with
    | .error e => .error e
    | .ok l =>
    match getLabelMatrix ((u.inner.map toIx).map .tup) Y L 0 with
    | .error e => .error e
    | .ok rows =>
    match u.matrixMask Y.length L 1 false with
    | .error e => .error e
    | .ok W =>
    match fit l with
    | .error e => .error e
    | .ok pres =>
    match l.unbroken with
    | .error e => .error e
    | .ok us =>
    match ones Y us with
    | .error e => .error e
    | .ok cs =>
    let dataInd := rows.map Prod.fst
    match argmin (dataInd.map (fun e => insval L (pres e) (meanNat cs) ((maskRow W e).filter (fun x => decide (x = 1))).length eps)) with
    | none => .error .valueError
    | some i =>
      match dataInd[i]? with
      | none => .error .indexError
      | some e =>
        match audiLabel argsort L (fun j => decide (((maskRow W e)[j]?).getD 0 = 0)) (pres e) with
        | .error err => .error err
        | .ok j => .ok (.pairs [(e, j)])

/-! ## AURO -/

/-- The choice of the two labels, query_type.py lines 152-170. If no second label is found, `y2` is not defined (reported as
`genericException`: UnboundLocalError). -/
def auroLabels [Field K] [LinearOrder K] (argsort : List (EF K) → List Nat) (L : Nat) (known : Nat → Bool) (row : Nat → EF K) : Except PyErr (Nat × Nat) :=
  let pre := (List.range L).map (fun j => if known j then .ninf else row j)
  match argmax pre with
  | none => .error .valueError
  | some y1 =>
    match (argsort (pre.map (fun x => EF.abs (EF.sub x (row L))))).find? (fun j => !known j && decide (j ≠ y1)) with
    | none => .error .genericException
    | some y2 => .ok (y1, y2)

/-- What AURO returns: the argument itself or an instance and two labels. query_type.py lines 98-172. -/
inductive AuroSel where
  | whole
  | triple (e : Int) (y1 y2 : Nat)
  deriving DecidableEq, Repr

/-- `np.argmax` of an array of counts: the first largest. query_type.py lines 98-172. -/
def argmaxNat (l : List Nat) : Option Nat := l.findIdx? (fun x => l.all (fun y => decide (y ≤ x)))

/-- `QueryTypeAURO.select`, query_type.py lines 98-172. Instances of the mask with more than one unknown label are considered (line 136). -/
def auro [Field K] [LinearOrder K] (argsort : List (EF K) → List Nat) (fit : MLIC → Except PyErr (Int → Nat → EF K)) (n L : Nat) (lab unl : PairArg) :
    Except PyErr AuroSel :=
  if unl.len ≤ 1 then .ok .whole
  else
    match checkInd n L unl with
    | .error e => .error e
    | .ok u =>
    match checkInd n L lab with
    | .error e => .error e
    | .ok l =>
    match u.matrixMask n L 1 false with
    | .error e => .error e
    | .ok W =>
    match fit l with
    | .error e => .error e
    | .ok pres =>
    let count (i : Nat) : Nat := ((maskRow W i).filter (fun x => decide (x = 1))).length
    let cand := (List.range n).filter (fun i => decide (1 < count i))
    match argmaxNat (cand.map count) with
    | none => .error .valueError
    | some k =>
      match cand[k]? with
      | none => .error .indexError
      | some i =>
        match auroLabels argsort L (fun j => decide (((maskRow W i)[j]?).getD 0 = 0)) (pres i) with
        | .error err => .error err
        | .ok (y1, y2) => .ok (.triple i y1 y2)

/-! ## QUIRE -/

/-- `QueryMultiLabelQUIRE.select`, multi_label.py lines 452-499, given the values `vals` (lines 476-495) as a function of the sorted indexes of the
unlabelled pairs: the pair of the smallest value, decoded (line 499). -/
def quire [LE K] [DecidableLE K] (vals : List Int → List (EF K)) (n L : Nat) (lab unl : PairArg) : Except PyErr Sel :=
  if unl.len ≤ 1 then .ok .whole
  else
    match checkInd n L unl with
    | .error e => .error e
    | .ok u =>
    match checkInd n L lab with
    | .error e => .error e
    | .ok _ =>
    match u.onedim .F (some n) with
    | .error e => .error e
    | .ok ks =>
      let uidx := sortBy (fun a b => decide (a ≤ b)) ks
      match argmin (vals uidx) with
      | none => .error .valueError
      | some i =>
        match uidx[i]? with
        | none => .error .indexError
        | some k => .ok (.pairs [(k % (n : Int), k / (n : Int))])

/-! ## Random -/

/-- `select_type`, multi_label.py line 1188. -/
inductive RandType where
  | ins | insLab | other

/-- What the random strategy returns: the argument itself, instances `(e,)`, or pairs. multi_label.py lines 1188-1203. -/
inductive RandSel where
  | whole
  | insts (l : List Int)
  | pairs (l : List (Int × Second))
  deriving DecidableEq, Repr

/-- `QueryMultiLabelRandom.select`, lines 1188-1203. -/
def random (shuffle : List Int → List Int) (n L : Nat) (t : RandType) (unl : PairArg) (batch : Int) : Except PyErr RandSel :=
  match t with
  | .other => .error .valueError
  | .ins =>
    if (unl.len : Int) ≤ batch then .ok .whole
    else
      match checkInd n L unl with
      | .error e => .error e
      | .ok u =>
        match randperm shuffle (.int ((u.instanceIndex.length : Int) - 1)) (.int batch) with
        | .error e => .error e
        | .ok perm =>
          match pickAll u.instanceIndex perm with
          | .error e => .error e
          | .ok l => .ok (.insts l)
  | .insLab =>
    if (unl.len : Int) ≤ batch then .ok .whole
    else
      match checkInd n L unl with
      | .error e => .error e
      | .ok u =>
        match randperm shuffle (.int ((u.inner.length : Int) - 1)) (.int batch) with
        | .error e => .error e
        | .ok perm =>
          match pickAll u.inner perm with
          | .error e => .error e
          | .ok l => .ok (.pairs l)

end Alipy.MLSelect

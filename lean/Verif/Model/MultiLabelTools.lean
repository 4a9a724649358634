import Verif.Model.Py
import Verif.Model.Sort

/-!
# Model of `alipy/index/multi_label_tools.py` (lines 16-158)

Instances and labels are integers.  A multi-label index is a Python tuple `(e,)`, `(e, l)` or
`(e, [l1, l2, ..])`; other lengths are kept in the model because the code treats them in its own way.
-/
namespace Alipy

/-- Second component of an index tuple: a scalar or an iterable (`hashable` for a tuple, not for a list). multi_label_tools.py lines 98-102. -/
inductive Second where
  | scal (l : Int)
  | iter (hashable : Bool) (ls : List Int)
  deriving DecidableEq, Repr

/-- An index tuple by its length: 0, 1, 2, or more than 2 (only the first two components are kept). multi_label_tools.py lines 53 and 94. -/
inductive Ix where
  | nil
  | all (e : Int)
  | pair (e : Int) (s : Second)
  | longer (e : Int) (s : Second)
  deriving DecidableEq, Repr

/-- An item of a list of indexes: a tuple or some other object. multi_label_tools.py lines 28-32. -/
inductive Item where
  | tup (ix : Ix)
  | other
  deriving DecidableEq, Repr

/-- Keep the tuples, fail if there is another object. multi_label_tools.py lines 28-32. -/
def allTuples : List Item → Option (List Ix)
  | [] => some []
  | .other :: _ => none
  | .tup ix :: r => (allTuples r).map (ix :: ·)

/-- `check_index_multilabel` on a list, multi_label_tools.py lines 26-33: the list must be non-empty and all its
items tuples. (Items whose type is a proper subclass of tuple are not modelled.) -/
def checkIndexMultilabel (items : List Item) : Except PyErr (List Ix) :=
  match items with
  | [] => .error .typeError
  | _ =>
    match allTuples items with
    | none => .error .typeError
    | some ixs => .ok ixs

/-- The second components of the tuples of length 2, multi_label_tools.py line 55. -/
def seconds : List Ix → List Second
  | [] => []
  | .pair _ s :: r => s :: seconds r
  | _ :: r => seconds r

def Ix.isAll : Ix → Bool
  | .all _ => true
  | _ => false

/-- All scalars, if they are. multi_label_tools.py line 55. -/
def allScal : List Second → Option (List Int)
  | [] => some []
  | .scal l :: r => (allScal r).map (l :: ·)
  | .iter _ _ :: _ => none

/-- All entries, if all components are iterables of the length `k`. multi_label_tools.py line 55. -/
def allIter (k : Nat) : List Second → Option (List Int)
  | [] => some []
  | .scal _ :: _ => none
  | .iter _ ls :: r => if ls.length = k then (allIter k r).map (ls ++ ·) else none

/-- Largest element of a list (`np.max`). multi_label_tools.py line 55. -/
def listMax : List Int → Option Int
  | [] => none
  | x :: xs => some (xs.foldl max x)

/-- `infer_label_size_multilabel`, multi_label_tools.py lines 53-63. `np.max` works if the second components are all
scalars or all iterables of one length (a 2-D array); a ragged array gives a TypeError, an array of empty lists a
ValueError. -/
def inferLabelSize (ixs : List Ix) : Except PyErr Int :=
  match seconds ixs with
  | [] => if ixs.all Ix.isAll then .error .genericException else .error .valueError
  | s :: ss =>
    match s with
    | .scal _ =>
      match allScal (s :: ss) with
      | none => .error .typeError
      | some ls => match listMax ls with
        | none => .error .valueError
        | some m => .ok (m + 1)
    | .iter _ l0 =>
      match allIter l0.length (s :: ss) with
      | none => .error .typeError
      | some ls => match listMax ls with
        | none => .error .valueError
        | some m => .ok (m + 1)

/-- `range(n)` on integers. multi_label_tools.py lines 95 and 140. -/
def intRange (n : Int) : List Int := (List.range n.toNat).map (fun i : Nat => (i : Int))

/-- The pairs of one item, body of the loop in multi_label_tools.py lines 94-104. An empty tuple raises IndexError at
line 98, a scalar label out of range AssertionError at line 101; labels of an iterable that are out of range are
skipped (line 99). -/
def flatten1 (L : Int) : Ix → Except PyErr (List (Int × Int))
  | .nil => .error .indexError
  | .all e => .ok ((intRange L).map (fun i => (e, i)))
  | .pair e (.scal l) | .longer e (.scal l) => if 0 ≤ l ∧ l < L then .ok [(e, l)] else .error .assertionError
  | .pair e (.iter _ ls) | .longer e (.iter _ ls) =>
    .ok ((ls.filter (fun l => decide (0 ≤ l ∧ l < L))).map (fun l => (e, l)))

/-- The loop of lines 93-105. -/
def flattenLoop (L : Int) : List Ix → Except PyErr (List (Int × Int))
  | [] => .ok []
  | ix :: r =>
    match flatten1 L ix with
    | .error e => .error e
    | .ok ps =>
      match flattenLoop L r with
      | .error e => .error e
      | .ok qs => .ok (ps ++ qs)

/-- `flattern_multilabel_index`, multi_label_tools.py lines 86-105, after the check of the argument (the type check
of line 86-87 is `checkIndexMultilabel`; a collection passes it unchanged). -/
def flatten (ixs : List Ix) (labelSize : Option Int) : Except PyErr (List (Int × Int)) :=
  match labelSize with
  | none =>
    match inferLabelSize ixs with
    | .error e => .error e
    | .ok L => flattenLoop L ixs
  | some L => if 0 < L then flattenLoop L ixs else .error .assertionError

/-- Python's insertion-ordered `dict` as an association list: assign. multi_label_tools.py lines 140 and 147. -/
def dictSet {κ ν : Type} [DecidableEq κ] (k : κ) (v : ν) : List (κ × ν) → List (κ × ν)
  | [] => [(k, v)]
  | (k', v') :: r => if k' = k then (k', v) :: r else (k', v') :: dictSet k v r

/-- Lookup. multi_label_tools.py lines 143-144. -/
def dictGet {κ ν : Type} [DecidableEq κ] (k : κ) : List (κ × ν) → Option ν
  | [] => none
  | (k', v') :: r => if k' = k then some v' else dictGet k r

/-- Python's `set.update(ls)` on a set kept as a duplicate-free list. multi_label_tools.py lines 144-145. -/
def setUnion {α : Type} [DecidableEq α] (s : List α) : List α → List α
  | [] => s
  | l :: r => if l ∈ s then setUnion s r else setUnion (s ++ [l]) r

/-- `index[1] if isinstance(index[1], Iterable) else [index[1]]`. multi_label_tools.py lines 145 and 148. -/
def Second.toList : Second → List Int
  | .scal l => [l]
  | .iter _ ls => ls

/-- One step of the loop in multi_label_tools.py lines 138-148. -/
def integrateStep (L : Int) (d : List (Int × List Int)) : Ix → Except PyErr (List (Int × List Int))
  | .nil => .error .indexError
  | .all e => .ok (dictSet e (intRange L) d)
  | .pair e s | .longer e s =>
    match dictGet e d with
    | some ls => .ok (dictSet e (setUnion ls s.toList) d)
    | none => .ok (dictSet e (setUnion [] s.toList) d)

/-- The loop of lines 137-148. -/
def integrateLoop (L : Int) : List (Int × List Int) → List Ix → Except PyErr (List (Int × List Int))
  | d, [] => .ok d
  | d, ix :: r =>
    match integrateStep L d ix with
    | .error e => .error e
    | .ok d' => integrateLoop L d' r

/-- Lines 150-156: an instance with `label_size` labels becomes `(e,)`, the others `(e, tuple(labels))`. -/
def integrateOut (L : Int) (d : List (Int × List Int)) : List Ix :=
  d.map (fun (e, ls) => if (ls.length : Int) = L then .all e else .pair e (.iter true ls))

/-- `integrate_multilabel_index`, multi_label_tools.py lines 128-158, after the check of the argument. -/
def integrate (ixs : List Ix) (labelSize : Option Int) : Except PyErr (List Ix) :=
  let go (L : Int) := match integrateLoop L [] ixs with
    | .error e => Except.error e
    | .ok d => .ok (integrateOut L d)
  match labelSize with
  | none =>
    match inferLabelSize ixs with
    | .error e => .error e
    | .ok L => go L
  | some L => if 0 < L then go L else .error .assertionError

/-! ## `get_labelmatrix_in_multilabel`, lines 161-239 -/

/-- `data[i, j]` of a list of rows, `0` outside (never read outside by the model of legal calls). multi_label_tools.py lines 232 and 238. -/
def cell (m : List (List Int)) (i j : Nat) : Int := ((m[i]?.getD [])[j]?).getD 0

/-- Python row indexing `m[e]` with wrap-around of negative `e`. multi_label_tools.py lines 232 and 238. -/
def pyRow (m : List (List Int)) (e : Int) : Option (List Int) :=
  if 0 ≤ e then m[e.toNat]? else if (-e).toNat ≤ m.length then m[m.length - (-e).toNat]? else none

/-- `tmp[label_ind] = row[label_ind]`: copy the cells at `ls` (all within the row). multi_label_tools.py lines 232 and 238. -/
def copyCells (src : List Int) (ls : List Int) (tgt : List Int) : List Int :=
  (List.range tgt.length).map (fun j : Nat =>
    if (j : Int) ∈ ls then (src[j]?).getD 0 else (tgt[j]?).getD 0)

/-- The labels addressed by an index tuple (lines 220-227). -/
def labelInd (m : Int) : Ix → Except PyErr (Int × List Int)
  | .nil | .longer _ _ => .error .valueError
  | .all e => .ok (e, intRange m)
  | .pair e (.iter _ ls) => .ok (e, ls.filter (fun l => decide (0 ≤ l ∧ l < m)))
  | .pair e (.scal l) => if 0 ≤ l ∧ l < m then .ok (e, [l]) else .error .assertionError

/-- Replace the row of instance `e`. multi_label_tools.py line 238. -/
def setRow (e : Int) (row : List Int) : List (Int × List Int) → List (Int × List Int)
  | [] => []
  | (e', r') :: rest => if e' = e then (e', row) :: rest else (e', r') :: setRow e row rest

/-- Lines 214-219 and 230-238: a new row for a new instance, else the labels are copied into its row. -/
def storeRow (data : List (List Int)) (m : Nat) (unknown : Int) (acc : List (Int × List Int)) (e : Int) (ls : List Int) :
    Except PyErr (List (Int × List Int)) :=
  match pyRow data e with
  | none => .error .indexError
  | some src =>
    match dictGet e acc with
    | none => .ok (acc ++ [(e, copyCells src ls (List.replicate m unknown))])
    | some old => .ok (setRow e (copyCells src ls old) acc)

/-- One step of the loop of lines 206-238. `acc` is `zip(index_arr, label_indexed)`. The order of the checks is that of
the code (tuple length, instance bound, label bound); `ins_bound` only bounds the instance from above. A negative
instance below `-ins_bound` raises IndexError at line 232/238. -/
def labelMatrixStep (data : List (List Int)) (m : Nat) (unknown : Int) (acc : List (Int × List Int)) (ix : Ix) :
    Except PyErr (List (Int × List Int)) :=
  let inst : Except PyErr Int := match ix with
    | .nil | .longer _ _ => .error .valueError
    | .all e | .pair e _ => if e < data.length then .ok e else .error .assertionError
  match inst with
  | .error err => .error err
  | .ok e =>
    match labelInd m ix with
    | .error err => .error err
    | .ok (_, ls) =>
      storeRow data m unknown acc e ls

def labelMatrixLoop (data : List (List Int)) (m : Nat) (unknown : Int) :
    List (Int × List Int) → List Ix → Except PyErr (List (Int × List Int))
  | acc, [] => .ok acc
  | acc, ix :: r =>
    match labelMatrixStep data m unknown acc ix with
    | .error e => .error e
    | .ok acc' => labelMatrixLoop data m unknown acc' r

/-- `get_labelmatrix_in_multilabel(index, data_matrix, unknown_element)`, multi_label_tools.py lines 195-239, for a
matrix with rows `data` of length `m`. Result: the instance of each row with the row (the code returns the two
columns of this list as a pair). `index` is a list of items; a collection is passed as the list of its tuples. -/
def getLabelMatrix (items : List Item) (data : List (List Int)) (m : Nat) (unknown : Int) :
    Except PyErr (List (Int × List Int)) :=
  match checkIndexMultilabel items with
  | .error e => .error e
  | .ok ixs => labelMatrixLoop data m unknown [] ixs

/-- The rows of `X[ins_index, :]`, line 288. -/
def pyRows (X : List (List Int)) : List Int → Except PyErr (List (List Int))
  | [] => .ok []
  | e :: es =>
    match pyRow X e with
    | none => .error .indexError
    | some r =>
      match pyRows X es with
      | .error err => .error err
      | .ok rs => .ok (r :: rs)

/-- `get_Xy_in_multilabel(index, X, y, unknown_element)`, multi_label_tools.py lines 283-288. -/
def getXy (items : List Item) (X y : List (List Int)) (m : Nat) (unknown : Int) : Except PyErr (List (List Int) × List (List Int) × List Int) :=
  if X.length ≠ y.length then .error .valueError
  else
    match getLabelMatrix items y m unknown with
    | .error e => .error e
    | .ok out =>
      match pyRows X (out.map Prod.fst) with
      | .error e => .error e
      | .ok rows => .ok (rows, out.map Prod.snd, out.map Prod.fst)

end Alipy

import Verif.Model.MultiLabelTools
import Verif.Model.IndexCollection

/-!
# Model of `alipy/index/index_collections.py`, `MultiLabelIndexCollection` (lines 229-615) and
`map_whole_index_to_train` (lines 670-712).

The Python `set` is a duplicate-free list; its iteration order is unspecified in Python, so no theorem depends on the
order of the list.
-/
namespace Alipy

/-- `_innercontainer`, `_label_size`, and whether `_innercontainer` is a Python list instead of a set (it is one in a
copy made by the constructor, line 284: `data.index` is a list). -/
structure MLIC where
  inner : List (Int × Second)
  lsz : Option Int
  isList : Bool
  deriving DecidableEq, Repr

namespace MLIC

abbrev Res := MLIC × Option PyErr

/-- An element of the container as an index tuple. Lines 394 and 421. -/
def toIx (p : Int × Second) : Ix := .pair p.1 p.2

/-- A plain pair as an element. Lines 330 and 578. -/
def plain (p : Int × Int) : Int × Second := (p.1, .scal p.2)

/-- Constructor with `None` or empty data, lines 275-281. -/
def empty (lsz : Option Int) : MLIC := ⟨[], lsz, false⟩

/-- Constructor with a non-empty collection, lines 283-286; with an empty one lines 275-281 apply. -/
def copy (c : MLIC) (lsz : Option Int) : MLIC :=
  if c.inner.isEmpty then empty lsz else ⟨c.inner, c.lsz, true⟩

/-- Constructor with a list, lines 274-302. -/
def mk' (items : List Item) (lsz : Option Int) : Except PyErr MLIC :=
  match items with
  | [] => .ok (empty lsz)
  | _ =>
    match checkIndexMultilabel items with
    | .error e => .error e
    | .ok ixs =>
      let L : Except PyErr Int := match lsz with
        | some L => .ok L
        | none => inferLabelSize ixs
      match L with
      | .error e => .error e
      | .ok L =>
        match flatten ixs (some L) with
        | .error e => .error e
        | .ok ps => .ok ⟨(setUnion [] (ps.map plain)), some L, false⟩

/-- Can the second component be stored in a set?. Lines 342, 347 and 370. -/
def hashable : Second → Bool
  | .scal _ => true
  | .iter h _ => h

/-- Bound check of `add`, lines 333-339: only the upper bound; `None` as label size raises TypeError. An iterable that
is empty passes even then. -/
def checkBound (lsz : Option Int) (s : Second) : Option PyErr :=
  match s, lsz with
  | .scal _, none => some .typeError
  | .scal l, some L => if L ≤ l then some .valueError else none
  | .iter _ [], _ => none
  | .iter _ (_ :: _), none => some .typeError
  | .iter _ ls, some L => if ls.any (fun l => decide (L ≤ l)) then some .valueError else none

/-- Insert an element, lines 342-348. `value in set` needs a hashable value; a list container has no `add`. -/
def insert (c : MLIC) (p : Int × Second) : Res :=
  if !c.isList && !hashable p.2 then (c, some .typeError)
  else if p ∈ c.inner then (c, none)
  else if c.isList then (c, some .attributeError)
  else ({ c with inner := c.inner ++ [p] }, none)

/-- `add` on a tuple of length 2, lines 332-348. -/
def addPair (c : MLIC) (e : Int) (s : Second) : Res :=
  match checkBound c.lsz s with
  | some err => (c, some err)
  | none => c.insert (e, s)

/-- `for j in label_ind: self.add(j)`, lines 422-423 (each `j` is a plain pair). -/
def addPairs (c : MLIC) : List (Int × Int) → Res
  | [] => (c, none)
  | p :: ps =>
    match c.addPair p.1 (.scal p.2) with
    | (c', none) => addPairs c' ps
    | (c', some e) => (c', some e)

/-- Delete an element, lines 370-376. -/
def erase (c : MLIC) (p : Int × Second) : Res :=
  if !c.isList && !hashable p.2 then (c, some .typeError)
  else if p ∈ c.inner then
    if c.isList then (c, some .attributeError) else ({ c with inner := c.inner.filter (fun q => !decide (q = p)) }, none)
  else (c, none)

/-- `for j in label_ind: self.discard(j)`, lines 395-396. -/
def erasePairs (c : MLIC) : List (Int × Int) → Res
  | [] => (c, none)
  | p :: ps =>
    match c.erase (plain p) with
    | (c', none) => erasePairs c' ps
    | (c', some e) => (c', some e)

/-- Argument of `update` / `difference_update`: a list (or array) of items, a collection (possibly this one: the
pairs are copied to a new list first), a tuple, another object. Lines 393-402 and 420-429. -/
inductive Arg where
  | list (items : List Item)
  | coll (c : MLIC)
  | tuple (ix : Ix)
  | other
  deriving Repr

/-- `flattern_multilabel_index(other, self._label_size)`, lines 394 and 421. -/
def flattenArg (c : MLIC) : Arg → Except PyErr (List (Int × Int))
  | .list items =>
    match checkIndexMultilabel items with
    | .error e => .error e
    | .ok ixs => flatten ixs c.lsz
  | .coll d => flatten (d.inner.map toIx) c.lsz
  | _ => .error .typeError

/-- `update` with a list or collection, lines 420-423. -/
def updateMany (c : MLIC) (a : Arg) : Res :=
  match c.flattenArg a with
  | .error e => (c, some e)
  | .ok ps => c.addPairs ps

/-- `difference_update` with a list or collection, lines 393-396. -/
def differenceMany (c : MLIC) (a : Arg) : Res :=
  match c.flattenArg a with
  | .error e => (c, some e)
  | .ok ps => c.erasePairs ps

/-- All labels of an instance as a list of index tuples, lines 330 and 368. -/
def allLabels (e : Int) (L : Int) : List Item := (intRange L).map (fun i => .tup (.pair e (.scal i)))

/-- `add`, lines 311-348 (the argument is a tuple; anything else fails the assertion of line 328). -/
def add (c : MLIC) : Ix → Res
  | .all e =>
    match c.lsz with
    | none => (c, some .typeError)
    | some L => c.updateMany (.list (allLabels e L))
  | .pair e s => c.addPair e s
  | .nil | .longer _ _ => (c, some .valueError)

/-- `discard`, lines 350-376. A tuple of another length is simply not in the container (or unhashable). -/
def discard (c : MLIC) : Ix → Res
  | .all e =>
    match c.lsz with
    | none => (c, some .typeError)
    | some L => c.differenceMany (.list (allLabels e L))
  | .pair e s => c.erase (e, s)
  | .nil => (c, none)
  | .longer _ s => if !c.isList && !hashable s then (c, some .typeError) else (c, none)

/-- `update`, lines 405-430. -/
def update (c : MLIC) : Arg → Res
  | .list items => c.updateMany (.list items)
  | .coll d => c.updateMany (.coll d)
  | .tuple ix => c.add ix
  | .other => (c, some .typeError)

/-- `difference_update`, lines 378-403. -/
def differenceUpdate (c : MLIC) : Arg → Res
  | .list items => c.differenceMany (.list items)
  | .coll d => c.differenceMany (.coll d)
  | .tuple ix => c.discard ix
  | .other => (c, some .typeError)

/-- `pop` (lines 106-110, inherited): removes some element of the set; which one is up to Python (`k`). -/
def pop (c : MLIC) (k : Nat) : Res :=
  match c.inner with
  | [] => (c, some (if c.isList then .indexError else .keyError))
  | _ => ({ c with inner := c.inner.eraseIdx (k % c.inner.length) }, none)

/-- `clear` (utils/interface.py lines 148-150). -/
def clear (c : MLIC) : MLIC := { c with inner := [] }

/-- The public mutating calls; `remove` is `discard`. Lines 311-430 and utils/interface.py lines 144-150. -/
inductive Op where
  | add (ix : Ix)
  | discard (ix : Ix)
  | update (a : Arg)
  | differenceUpdate (a : Arg)
  | pop (k : Nat)
  | clear
  deriving Repr

/-- One public call: the object afterwards and the exception. Lines 311-430. -/
def step (c : MLIC) : Op → Res
  | .add ix => c.add ix
  | .discard ix => c.discard ix
  | .update a => c.update a
  | .differenceUpdate a => c.differenceUpdate a
  | .pop k => c.pop k
  | .clear => (c.clear, none)

/-! ## Queries -/

/-- `get_instance_index`, lines 464-473: sorted distinct instances. -/
def instanceIndex (c : MLIC) : List Int :=
  sortBy (fun a b => decide (a ≤ b)) (setUnion [] (c.inner.map Prod.fst))

/-- The instance of a tuple of length 1 (line 483) / of length > 1 (line 485). -/
def allInst : Ix → Option Int
  | .all e => some e
  | _ => none

def pairInst : Ix → Option Int
  | .pair e _ => some e
  | .longer e _ => some e
  | _ => none

/-- `_get_cond_instance`, lines 475-485, with `get_unbroken_instances` (487-489) and `get_break_instances`
(491-493). -/
def unbroken (c : MLIC) : Except PyErr (List Int) :=
  match integrate (c.inner.map toIx) c.lsz with
  | .error e => .error e
  | .ok l => .ok (l.filterMap allInst)

def broken (c : MLIC) : Except PyErr (List Int) :=
  match integrate (c.inner.map toIx) c.lsz with
  | .error e => .error e
  | .ok l => .ok (l.filterMap pairInst)

inductive Order where
  | C | F
  deriving DecidableEq, Repr

/-- Encode one pair, lines 458 and 460. -/
def encode (o : Order) (n L : Int) (p : Int × Int) : Int :=
  match o with
  | .F => p.1 + p.2 * n
  | .C => p.1 * L + p.2

/-- The plain pairs of a collection; a compound element makes the arithmetic of line 458/460 fail (repeating a tuple),
which is left out: result `none`. -/
def plainPairs : List (Int × Second) → Option (List (Int × Int))
  | [] => some []
  | (e, .scal l) :: r => (plainPairs r).map ((e, l) :: ·)
  | (_, .iter _ _) :: _ => none

/-- `get_onedim_index(order, ins_num)`, lines 432-462. The default order is `C`. -/
def onedim (c : MLIC) (o : Order) (insNum : Option Int) : Except PyErr (List Int) :=
  match plainPairs c.inner with
  | none => .error .typeError
  | some ps =>
    match o with
    | .F => match insNum with
      | none => .error .valueError
      | some n => .ok (ps.map (encode .F n 0))
    | .C => match c.lsz with
      | none => if ps.isEmpty then .ok [] else .error .typeError
      | some L => .ok (ps.map (encode .C 0 L))

/-- `np.unravel_index(k, (n, L), order)`, line 577: `C`: `(k / L, k mod L)`, `F`: `(k mod n, k / n)`. -/
def decode (o : Order) (n L : Int) (k : Int) : Int × Int :=
  match o with
  | .C => (k / L, k % L)
  | .F => (k % n, k / n)

/-- `construct_by_1d_array(array, (n, L), order)`, lines 542-578 (default order `F`); `unravel_index` raises ValueError
on an index out of bounds. `array` is an array of integers (an empty Python list, which numpy takes for an array of floats, is refused with TypeError; not modelled). -/
def by1d (ks : List Int) (n L : Int) (o : Order) : Except PyErr MLIC :=
  if ks.all (fun k => decide (0 ≤ k ∧ k < n * L)) then
    mk' ((ks.map (decode o n L)).map (fun p => .tup (.pair p.1 (.scal p.2)))) (some L)
  else .error .valueError

/-- Set one cell of a matrix given as a list of rows (cell in range). Lines 535 and 539. -/
def setCell (m : List (List Int)) (i j : Nat) (v : Int) : List (List Int) :=
  m.set i (((m[i]?).getD []).set j v)

/-- `mask[item] = value`, lines 535/539: Python indexing with wrap-around of negative indexes. -/
def maskAssign (rows cols : Nat) (m : List (List Int)) (v : Int) (p : Int × Int) : Except PyErr (List (List Int)) :=
  let wrap (n : Nat) (i : Int) : Option Nat :=
    if 0 ≤ i ∧ i < n then some i.toNat else if i < 0 ∧ -(n : Int) ≤ i then some (i + n).toNat else none
  match wrap rows p.1, wrap cols p.2 with
  | some i, some j => .ok (setCell m i j v)
  | _, _ => .error .indexError

def maskLoop (rows cols : Nat) (v : Int) : List (List Int) → List (Int × Int) → Except PyErr (List (List Int))
  | m, [] => .ok m
  | m, p :: ps =>
    match maskAssign rows cols m v p with
    | .error e => .error e
    | .ok m' => maskLoop rows cols v m' ps

/-- `get_matrix_mask((rows, cols), fill_value, sparse)`, lines 495-540. The dense boolean mask (`fill_value == 1`) is
represented by 0/1. In the sparse branch (lines 522-530) the matrix is created and returned without being filled.
Compound elements (fancy indexing) are not modelled. -/
def matrixMask (c : MLIC) (rows cols : Nat) (fill : Int) (sparse : Bool) : Except PyErr (List (List Int)) :=
  let zero := List.replicate rows (List.replicate cols (0 : Int))
  if sparse then .ok zero
  else
    match plainPairs c.inner with
    | none => .error .typeError
    | some ps => maskLoop rows cols fill zero ps

/-- The positions of the non-zero entries of a row / matrix, row by row (`np.nonzero`, line 614). -/
def nonzeroRow (i : Nat) (row : List Int) : List (Int × Int) :=
  (List.range row.length).filterMap (fun j : Nat => if (row[j]?).getD 0 ≠ 0 then some ((i : Int), (j : Int)) else none)

def nonzero (m : List (List Int)) : List (Int × Int) :=
  (List.range m.length).flatMap (fun i => nonzeroRow i ((m[i]?).getD []))

/-- `construct_by_element_mask(mask)`, lines 580-615, for a 2-D array with `cols` columns: the distinct values must be
exactly 0 and 1 (`len(ue) == 2 and 0 in ue and 1 in ue`). -/
def byMask (m : List (List Int)) (cols : Nat) : Except PyErr MLIC :=
  if m.flatten.all (fun x => x == 0 || x == 1) && m.flatten.any (· == 0) && m.flatten.any (· == 1) then
    mk' ((nonzero m).map (fun p => .tup (.pair p.1 (.scal p.2)))) (some cols)
  else .error .valueError

end MLIC

/-- Does `train_idx == entry` compare element by element, for a Python list `train_idx`? `list.__eq__` leaves the comparison to the entry; a numpy number
(as the constructor of IndexCollection stores it) converts the list to an array, if that is an array of numbers. A plain Python number (as `add` stores it) and a
string do not: then the result is `False`. Lines 703-708. -/
def listCompares (train : List Val) (v : Val) : Bool :=
  v.np && v.base.kind != .str && train.all (fun w => w.base.kind != .str)

/-- `np.argwhere(train_idx == entry)[0][0]` after `assert entry in train_idx`, index_collections.py lines 703-708: first position. `asArray = false`: `train_idx` is
a Python list; if `train_idx == entry` is `False`, `np.argwhere` of it is empty and `[0]` raises IndexError. -/
def trainPos (asArray : Bool) (train : List Val) (v : Val) : Except PyErr Int :=
  match train.findIdx? (pyEq v) with
  | none => .error .assertionError
  | some i => if asArray || listCompares train v then .ok i else .error .indexError

/-- The loop of lines 701-708. -/
def trainPosAll (asArray : Bool) (train : List Val) : List Val → Except PyErr (List Int)
  | [] => .ok []
  | v :: vs =>
    match trainPos asArray train v with
    | .error e => .error e
    | .ok i =>
      match trainPosAll asArray train vs with
      | .error e => .error e
      | .ok is => .ok (i :: is)

/-- `map_whole_index_to_train` for an IndexCollection, lines 670-712. -/
def mapWholeToTrain (asArray : Bool) (train : List Val) (c : IC) : Except PyErr IC :=
  match trainPosAll asArray train c.inner with
  | .error e => .error e
  | .ok is => .ok (IC.mk' (is.map (fun i => ⟨true, .int i⟩)))

/-- `map_whole_index_to_train` for a MultiLabelIndexCollection of plain pairs (array `train_idx` of integers), lines
670-712: the label size is not passed on (line 710), the constructor infers it. -/
def mapWholeToTrainML (train : List Int) (c : MLIC) : Except PyErr MLIC :=
  match MLIC.plainPairs c.inner with
  | none => .error .typeError
  | some ps =>
    match trainPosAll true (train.map (fun i => ⟨true, .int i⟩)) (ps.map (fun p => ⟨true, .int p.1⟩)) with
    | .error e => .error e
    | .ok is => MLIC.mk' ((is.zip (ps.map Prod.snd)).map (fun p => .tup (.pair p.1 (.scal p.2)))) none

end Alipy

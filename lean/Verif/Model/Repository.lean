import Verif.Model.Oracle
/-!
# Knowledge repositories

`alipy/oracle/knowledge_repository.py` and the argument handling of `alipy/utils/misc.py:207-260`.
Indexes are of any type with decidable equality (integers, tuples; for the matrix repository scalars), labels are opaque for the element-wise repository, and have a
shape for the matrix repository. Examples are the tuples / row vectors. A cost is a number (an array of costs is represented by its
`np.sum`, which is all that is done with it). Warnings are not modelled; the final `np.asarray` conversions are identities.
-/
namespace Alipy

/-- An argument which is either one object or a `list` / `np.ndarray` / `BaseCollection` of objects
(`isinstance(item, (list, np.ndarray, BaseCollection))`). misc.py:231, 237 and 253. -/
inductive Arg (α : Type) where
  | one (a : α)
  | many (l : List α)
  deriving DecidableEq, Repr

/-- The length as computed in misc.py:231-235: 1 for something that is not array-like. -/
def Arg.len {α : Type} : Arg α → Nat
  | .one _ => 1
  | .many l => l.length

/-- The objects given by an argument. knowledge_repository.py:197-202. -/
def Arg.toList {α : Type} : Arg α → List α
  | .one a => [a]
  | .many l => l

/-- misc.py:246-260 `unpack`, for one argument: a list with only one element becomes that element. -/
def Arg.unpack {α : Type} : Arg α → Arg α
  | .many [a] => .one a
  | x => x

/-- misc.py:207-243 `check_one_to_one_correspondence` on the lengths of the arguments (`none` for `None`). The first argument that is
not `None` fixes the length. -/
def oneToOne : List (Option Nat) → Bool
  | [] => true
  | none :: r => oneToOne r
  | some n :: r => r.all (fun | none => true | some m => m = n)

/-- Remove a key from a `dict`. knowledge_repository.py:153, 155 and 169-171. -/
def dictErase {κ ν : Type} [DecidableEq κ] (k : κ) (d : List (κ × ν)) : List (κ × ν) := d.filter (fun p => p.1 ≠ k)

/-- One entry of `_query_history`: `((labels, cost), indexes)` after unpacking (knowledge_repository.py:304-306, 585-587). -/
structure RepoQuery (κ β : Type) where
  labels : Arg β
  cost : Option (Arg ℚ)
  indexes : Arg κ

/-- knowledge_repository.py:68-93, the attributes of `ElementRepository`. `dicts` says whether `_exa2ind` and `_ind2exa` exist (they are
created only if examples are given), `hasEx` is `_instance_flag`. -/
structure ERepo (κ β χ : Type) where
  indexes : List κ
  hasEx : Bool
  dicts : Bool
  exa2ind : List (χ × κ)
  ind2exa : List (κ × χ)
  ind2label : List (κ × β)
  cost : ℚ
  costArr : List ℚ
  numQueries : Nat
  history : List (RepoQuery κ β)

namespace ERepo
variable {κ β χ : Type} [DecidableEq κ] [DecidableEq χ]

/-- knowledge_repository.py:68-93 `__init__`; `labels` and `indexes` are array-like (asserted there). -/
def new (labels : List β) (indexes : List κ) (examples : Option (List χ)) : Except PyErr (ERepo κ β χ) :=
  if oneToOne [some labels.length, some indexes.length, examples.map List.length] then
    .ok
      { indexes := indexes
        hasEx := examples.isSome
        dicts := examples.isSome
        exa2ind := dictOfList ((examples.getD []).zip indexes)
        ind2exa := dictOfList (indexes.zip (examples.getD []))
        ind2label := dictOfList (indexes.zip labels)
        cost := 0, costArr := [], numQueries := 0, history := [] }
  else .error .valueError

/-- knowledge_repository.py:95-96 `__contains__`. -/
def contains (o : ERepo κ β χ) (k : κ) : Bool := (dictGet k o.ind2label).isSome

/-- The part of `add` after the check of the example: knowledge_repository.py:123-129. -/
def addRest (o : ERepo κ β χ) (k : κ) (b : β) (cost : Option ℚ) : ERepo κ β χ :=
  { o with
    cost := o.cost + cost.getD 0
    costArr := o.costArr ++ cost.toList
    ind2label := dictSet k b o.ind2label
    indexes := o.indexes ++ [k] }

/-- knowledge_repository.py:98-129 `add`. -/
def add (o : ERepo κ β χ) (k : κ) (b : β) (cost : Option ℚ) (ex : Option χ) : ERepo κ β χ × Option PyErr :=
  if o.hasEx then
    match ex with
    | none => (o, some .genericException)
    | some x => (({ o with exa2ind := dictSet x k o.exa2ind, ind2exa := dictSet k x o.ind2exa }).addRest k b cost, none)
  else (o.addRest k b cost, none)

/-- knowledge_repository.py:146-155, the branch of `discard` for an index; the third component says that the method returned. -/
def discardIx (o : ERepo κ β χ) (k : κ) : ERepo κ β χ × Option PyErr × Bool :=
  if k ∈ o.indexes then
    let o1 := { o with indexes := o.indexes.erase k }
    match dictGet k o.ind2label with
    | none => (o1, some .keyError, true)
    | some _ =>
      let o2 := { o1 with ind2label := dictErase k o.ind2label }
      if o.hasEx then
        match dictGet k o.ind2exa with
        | none => (o2, some .keyError, true)
        | some x =>
          let o3 := { o2 with ind2exa := dictErase k o.ind2exa }
          match dictGet x o.exa2ind with
          | none => (o3, some .keyError, true)
          | some _ => ({ o3 with exa2ind := dictErase x o.exa2ind }, none, false)
      else (o2, none, false)
  else (o, none, true)

/-- knowledge_repository.py:157-172, the branch of `discard` for an example. -/
def discardEx (o : ERepo κ β χ) (x : χ) : ERepo κ β χ × Option PyErr :=
  if o.hasEx then
    match dictGet x o.exa2ind with
    | none => (o, none)
    | some k =>
      if k ∈ o.indexes then
        let o1 := { o with indexes := o.indexes.erase k, exa2ind := dictErase x o.exa2ind }
        match dictGet k o.ind2exa with
        | none => (o1, some .keyError)
        | some _ =>
          let o2 := { o1 with ind2exa := dictErase k o.ind2exa }
          match dictGet k o.ind2label with
          | none => (o2, some .keyError)
          | some _ => ({ o2 with ind2label := dictErase k o.ind2label }, none)
      else (o, some .valueError)
  else (o, some .genericException)

/-- knowledge_repository.py:131-172 `discard`. -/
def discard (o : ERepo κ β χ) (k : Option κ) (x : Option χ) : ERepo κ β χ × Option PyErr :=
  match k, x with
  | none, none => (o, some .genericException)
  | some k, none => ((o.discardIx k).1, (o.discardIx k).2.1)
  | none, some x => o.discardEx x
  | some k, some x =>
    if (o.discardIx k).2.2 then ((o.discardIx k).1, (o.discardIx k).2.1) else (o.discardIx k).1.discardEx x

/-- knowledge_repository.py:200-202, the loop of `update_query`. An absent list of costs or examples gives absent components. -/
def addMany (o : ERepo κ β χ) : List (κ × β × Option ℚ × Option χ) → ERepo κ β χ × Option PyErr
  | [] => (o, none)
  | (k, b, c, x) :: r =>
    match o.add k b c x with
    | (o', none) => o'.addMany r
    | (o', some e) => (o', some e)

end ERepo

/-- The arguments of the calls of `add` made by `update_query` (both classes): the components at each position. knowledge_repository.py:198-202 and 429-433. -/
def repoRows {κ β χ : Type} (labels : List β) (indexes : List κ) (cost : Option (List ℚ)) (examples : Option (List χ)) :
    List (κ × β × Option ℚ × Option χ) :=
  match indexes, labels with
  | k :: ks, b :: bs =>
    (k, b, cost.bind List.head?, examples.bind List.head?) :: repoRows bs ks (cost.map List.tail) (examples.map List.tail)
  | _, _ => []

namespace ERepo
variable {κ β χ : Type} [DecidableEq κ] [DecidableEq χ]

/-- knowledge_repository.py:174-205 `update_query`. When the lengths agree, unpacking turns all arguments into single objects or none. -/
def updateQuery (o : ERepo κ β χ) (indexes : Arg κ) (labels : Arg β) (cost : Option (Arg ℚ)) (examples : Option (Arg χ)) :
    ERepo κ β χ × Option PyErr :=
  if oneToOne [some labels.len, some indexes.len, cost.map Arg.len, examples.map Arg.len] then
    match o.addMany (repoRows labels.toList indexes.toList (cost.map Arg.toList) (examples.map Arg.toList)) with
    | (o', some e) => (o', some e)
    | (o', none) =>
      ({ o' with
          numQueries := o'.numQueries + 1
          history := o'.history ++ [⟨labels.unpack, cost.map Arg.unpack, indexes.unpack⟩] }, none)
  else (o, some .valueError)

/-- knowledge_repository.py:229-236, the loop of `retrieve_by_indexes`: unknown indexes are skipped. Result: examples and labels. -/
def retrieve (o : ERepo κ β χ) : List κ → Except PyErr (List χ × List β)
  | [] => .ok ([], [])
  | k :: r =>
    match dictGet k o.ind2label with
    | none => o.retrieve r
    | some b =>
      if o.hasEx then
        match dictGet k o.ind2exa with
        | none => .error .keyError
        | some x => (o.retrieve r).map (fun p => (x :: p.1, b :: p.2))
      else (o.retrieve r).map (fun p => (p.1, b :: p.2))

/-- knowledge_repository.py:207-237 `retrieve_by_indexes`. -/
def retrieveByIndexes (o : ERepo κ β χ) (ks : Arg κ) : Except PyErr (List χ × List β) := o.retrieve ks.toList

/-- knowledge_repository.py:239-267 `retrieve_by_examples`, for a list of examples. -/
def retrieveByExamples (o : ERepo κ β χ) (xs : List χ) : Except PyErr (List χ × List β) :=
  if o.hasEx then o.retrieve (xs.filterMap (fun x => dictGet x o.exa2ind)) else .error .genericException

/-- knowledge_repository.py:284-290, the loop of `get_training_data`. -/
def training (o : ERepo κ β χ) : List κ → Except PyErr (List χ × List β)
  | [] => .ok ([], [])
  | k :: r =>
    if o.hasEx then
      match dictGet k o.ind2exa with
      | none => .error .keyError
      | some x =>
        match dictGet k o.ind2label with
        | none => .error .keyError
        | some b => (o.training r).map (fun p => (x :: p.1, b :: p.2))
    else
      match dictGet k o.ind2label with
      | none => .error .keyError
      | some b => (o.training r).map (fun p => (p.1, b :: p.2))

/-- knowledge_repository.py:269-290 `get_training_data`: examples, labels, indexes. -/
def getTrainingData (o : ERepo κ β χ) : Except PyErr (List χ × List β × List κ) :=
  (o.training o.indexes).map (fun p => (p.1, p.2, o.indexes))

/-- knowledge_repository.py:292-302 `clear`. Without examples the attribute `_exa2ind` does not exist: `AttributeError` after
`_indexes` has been cleared. `_ind2exa` is never cleared. -/
def clear (o : ERepo κ β χ) : ERepo κ β χ × Option PyErr :=
  if o.dicts then
    ({ o with indexes := [], exa2ind := [], ind2label := [], hasEx := false, cost := 0, costArr := [], numQueries := 0, history := [] },
      none)
  else ({ o with indexes := [] }, some .attributeError)

end ERepo

/-! ## MatrixRepository -/

/-- A label: a single value or a vector of values. knowledge_repository.py:386-393. -/
inductive Lab (γ : Type) where
  | sc (v : γ)
  | vec (vs : List γ)
  deriving DecidableEq, Repr

/-- Its shape: `none` for a single value, the length of a vector. knowledge_repository.py:386-393. -/
def Lab.shape {γ : Type} : Lab γ → Option Nat
  | .sc _ => none
  | .vec vs => some vs.length

/-- The three arrays of a `MatrixRepository` (`X = none` for `_instance_flag = False`), `shape` being that of one label of `_y`
(`none`: `_y.ndim == 1`), `dim` the number of columns of `_X`. knowledge_repository.py:347-353. -/
structure MArrays (κ γ : Type) where
  y : List (Lab γ)
  indexes : List κ
  X : Option (List (List γ))
  shape : Option Nat
  dim : Nat

/-- knowledge_repository.py:347-359, the attributes. `arr = none` after `clear` (all three arrays are `None`). -/
structure MRepo (κ γ : Type) where
  arr : Option (MArrays κ γ)
  cost : ℚ
  costArr : List (Option ℚ)
  numQueries : Nat
  history : List (RepoQuery κ (Lab γ))

namespace MRepo
variable {κ γ : Type} [DecidableEq κ] [DecidableEq γ]

/-- knowledge_repository.py:342-359 `__init__`. `check_array` refuses empty and ragged arrays with `ValueError`.
Repeated indexes are not checked. Sparse examples are not modelled. -/
def new (labels : List (Lab γ)) (indexes : List κ) (examples : Option (List (List γ))) : Except PyErr (MRepo κ γ) :=
  if oneToOne [some labels.length, some indexes.length, examples.map List.length] then
    match labels with
    | [] => .error .valueError
    | b :: _ =>
      if labels.all (fun b' => b'.shape = b.shape) then
        let d := ((examples.getD []).head?.getD []).length
        if (examples.getD []).all (fun x => x.length = d) then
          .ok { arr := some { y := labels, indexes := indexes, X := examples, shape := b.shape, dim := d },
                cost := 0, costArr := [], numQueries := 0, history := [] }
        else .error .valueError
      else .error .valueError
  else .error .valueError

/-- knowledge_repository.py:364-403 `add`. Order of effects: labels, indexes, costs are stored before a missing example or one of
another width is noticed. On a cleared repository `select_index in None` raises `TypeError`. -/
def add (o : MRepo κ γ) (b : Lab γ) (k : κ) (cost : Option ℚ) (ex : Option (List γ)) : MRepo κ γ × Option PyErr :=
  match o.arr with
  | none => (o, some .typeError)
  | some a =>
    if k ∈ a.indexes then (o, none)
    else if b.shape = a.shape then
      let a1 := { a with y := a.y ++ [b], indexes := a.indexes ++ [k] }
      let o1 := { o with arr := some a1, cost := o.cost + cost.getD 0, costArr := o.costArr ++ [cost] }
      match a.X with
      | none => (o1, none)
      | some xs =>
        match ex with
        | none => (o1, some .genericException)
        | some x =>
          if x.length = a.dim then ({ o1 with arr := some { a1 with X := some (xs ++ [x]) } }, none)
          else (o1, some .valueError)
    else (o, some (if a.shape = none then .typeError else .valueError))

/-- knowledge_repository.py:428-433, the loop of `update_query`. -/
def addMany (o : MRepo κ γ) : List (κ × Lab γ × Option ℚ × Option (List γ)) → MRepo κ γ × Option PyErr
  | [] => (o, none)
  | (k, b, c, x) :: r =>
    match o.add b k c x with
    | (o', none) => o'.addMany r
    | (o', some e) => (o', some e)

/-- knowledge_repository.py:405-436 `update_query`. -/
def updateQuery (o : MRepo κ γ) (labels : Arg (Lab γ)) (indexes : Arg κ) (cost : Option (Arg ℚ)) (examples : Option (Arg (List γ))) :
    MRepo κ γ × Option PyErr :=
  if oneToOne [some labels.len, some indexes.len, cost.map Arg.len, examples.map Arg.len] then
    match o.addMany (repoRows labels.toList indexes.toList (cost.map Arg.toList) (examples.map Arg.toList)) with
    | (o', some e) => (o', some e)
    | (o', none) =>
      ({ o' with
          numQueries := o'.numQueries + 1
          history := o'.history ++ [⟨labels.unpack, cost.map Arg.unpack, indexes.unpack⟩] }, none)
  else (o, some .valueError)

/-- `arr[mask]` for a boolean mask of the right length. knowledge_repository.py:474-477. -/
def mask {α : Type} (m : List Bool) (l : List α) : List α := ((l.zip m).filter (fun p => p.2)).map Prod.fst

/-- knowledge_repository.py:472-478, the end of `discard`: the rows at which `m` is `False` are removed. If `_X` has another number of
rows than `_indexes` (see `add`), `IndexError` after labels and indexes have been changed. -/
def applyMask (o : MRepo κ γ) (a : MArrays κ γ) (m : List Bool) : MRepo κ γ × Option PyErr :=
  let a1 := { a with y := mask m a.y, indexes := mask m a.indexes }
  match a.X with
  | none => ({ o with arr := some a1 }, none)
  | some xs =>
    if xs.length = m.length then ({ o with arr := some { a1 with X := some (mask m xs) } }, none)
    else ({ o with arr := some a1 }, some .indexError)

/-- knowledge_repository.py:507-517 `_find_one_example`: position of the first equal row. An example with a single entry would be compared with every
entry of a row (broadcasting); not modelled. -/
def findOne (xs : List (List γ)) (x : List γ) : Option Nat := xs.findIdx? (fun v => v = x)

/-- knowledge_repository.py:438-478 `discard`; an example, if given, decides (the position found for the index is overwritten), but an
unknown index returns first. A cleared repository: `TypeError` (`index not in None`), or the exception for examples. -/
def discard (o : MRepo κ γ) (k : Option κ) (x : Option (List γ)) : MRepo κ γ × Option PyErr :=
  match k, x with
  | none, none => (o, some .genericException)
  | _, _ =>
    match o.arr with
    | none => (o, some (if k.isSome then .typeError else .genericException))
    | some a =>
      if (k.map (fun k => decide (k ∈ a.indexes))).getD true then
        match x with
        | none => o.applyMask a (a.indexes.map (fun i => decide (some i ≠ k)))
        | some x =>
          match a.X with
          | none => (o, some .genericException)
          | some xs =>
            match findOne xs x with
            | none => (o, none)
            | some p => o.applyMask a ((List.range a.indexes.length).map (fun i => decide (i ≠ p)))
      else (o, none)

/-- Fancy indexing of the rows by a list of positions. knowledge_repository.py:505 and 551. -/
def rowsAt {α : Type} (l : List α) : List Nat → Except PyErr (List α)
  | [] => .ok []
  | p :: r =>
    match l[p]? with
    | none => .error .indexError
    | some a => (rowsAt l r).map (fun t => a :: t)

/-- knowledge_repository.py:504 the positions of the requested indexes: `np.argwhere(self._indexes == k).flatten()[0]`. -/
def positions (ixs : List κ) : List κ → Except PyErr (List Nat)
  | [] => .ok []
  | k :: r =>
    match ixs.findIdx? (fun i => i = k) with
    | none => .error .indexError
    | some p => (positions ixs r).map (fun t => p :: t)

/-- knowledge_repository.py:502 and 505 `self._X[ind,] if self._instance_flag else None, self._y[ind,]`. -/
def fetch (a : MArrays κ γ) (ps : List Nat) : Except PyErr (Option (List (List γ)) × List (Lab γ)) :=
  match a.X with
  | none => (rowsAt a.y ps).map (fun ys => (none, ys))
  | some xs =>
    match rowsAt xs ps with
    | .error e => .error e
    | .ok rs => (rowsAt a.y ps).map (fun ys => (some rs, ys))

/-- knowledge_repository.py:480-505 `retrieve_by_indexes`. For one index that is not array-like all its positions are fetched (an
empty result if there is none; if it occurs more than once the truth value of the array raises `ValueError`); the shape of the
result has an additional axis there, which is not modelled, and a warning is issued wrongly for position 0. -/
def retrieveByIndexes (o : MRepo κ γ) (ks : Arg κ) : Except PyErr (Option (List (List γ)) × List (Lab γ)) :=
  match o.arr with
  | none => .error .typeError
  | some a =>
    match ks with
    | .one k =>
      let ps := (List.range a.indexes.length).filter (fun p => a.indexes[p]? = some k)
      if 1 < ps.length then .error .valueError else fetch a ps
    | .many ks =>
      match positions a.indexes ks with
      | .error e => .error e
      | .ok ps => fetch a ps

/-- knowledge_repository.py:519-553 `retrieve_by_examples` for a 2D array: unknown examples are skipped. -/
def retrieveByExamples (o : MRepo κ γ) (xs : List (List γ)) : Except PyErr (List (List γ) × List (Lab γ)) :=
  match o.arr with
  | none => .error .genericException
  | some a =>
    match a.X with
    | none => .error .genericException
    | some rows =>
      let ps := xs.filterMap (findOne rows)
      match rowsAt rows ps with
      | .error e => .error e
      | .ok rs => (rowsAt a.y ps).map (fun ys => (rs, ys))

/-- knowledge_repository.py:555-570 `get_training_data`; `none` after `clear` (`None, None, array(None)`). -/
def getTrainingData (o : MRepo κ γ) : Option (Option (List (List γ)) × List (Lab γ) × List κ) :=
  o.arr.map (fun a => (a.X, a.y, a.indexes))

/-- knowledge_repository.py:572-583 `clear`. -/
def clear (_ : MRepo κ γ) : MRepo κ γ := { arr := none, cost := 0, costArr := [], numQueries := 0, history := [] }

end MRepo
end Alipy

import Verif.Model.MultiLabelTools
import Mathlib.Data.Rat.Defs

/-! # Model of `alipy/oracle/oracle.py`

Indexes are dictionary keys (`Key`: what `==` and `hash` see of an int or str). `χ` is the type of examples (tuples of
features), `β` the type of labels. Costs are rational numbers. -/
namespace Alipy

/-- `dict(zip(..))`: later entries overwrite earlier ones. oracle.py lines 76-80. -/
def dictOfList {κ ν : Type} [DecidableEq κ] (l : List (κ × ν)) : List (κ × ν) :=
  l.foldl (fun d p => dictSet p.1 p.2 d) []

/-- The dictionary `_ind2all`: labels only, or pairs of label and cost (`_cost_flag`). oracle.py lines 77-80. -/
inductive Table (κ β γ : Type) where
  | plain (d : List (κ × β))
  | cost (d : List (κ × (β × γ)))
  deriving DecidableEq, Repr

/-- An `Oracle` object. `exa2ind = none` for an oracle without examples (`_instance_flag = False`); `labelTy` is the class of
the labels (`_label_type`, as a number). oracle.py lines 60-80. -/
structure Oracle (χ β : Type) where
  exa2ind : Option (List (χ × Key))
  table : Table Key β ℚ
  labelTy : Nat
  deriving DecidableEq, Repr

/-- Length of an optional list argument; `check_one_to_one_correspondence` (utils/misc.py lines 207-243) on lists: all given
lists have the length of the first. Scalars are not modelled. -/
def sameLength {α : Type} (n : Nat) : Option (List α) → Bool
  | none => true
  | some l => l.length = n

namespace Oracle
variable {χ β : Type} [DecidableEq χ]

/-- Default indexes `0, 1, ..`, oracle.py line 69. -/
def defaultIndexes (n : Nat) : List Key := (List.range n).map (fun i : Nat => .num i)

/-- `Oracle(labels, examples, indexes, cost)`, oracle.py lines 55-80. `ty` gives the class of a label. `check_array` refuses
an empty list of labels (ValueError). -/
def new (ty : β → Nat) (labels : List β) (examples : Option (List χ)) (indexes : Option (List Key)) (cost : Option (List ℚ)) :
    Except PyErr (Oracle χ β) :=
  if !(sameLength labels.length examples && sameLength labels.length indexes && sameLength labels.length cost) then
    .error .valueError
  else
    match labels with
    | [] => .error .valueError
    | l :: _ =>
      let ix := indexes.getD (defaultIndexes labels.length)
      .ok ⟨examples.map (fun xs => dictOfList (xs.zip ix)),
        match cost with
        | some cs => .cost (dictOfList (ix.zip (labels.zip cs)))
        | none => .plain (dictOfList (ix.zip labels)),
        ty l⟩

/-- `_add_one_entry`, oracle.py lines 93-139. The object is returned as it is when the call returns or raises. -/
def addOne (ty : β → Nat) (o : Oracle χ β) (label : β) (index : Key) (ex : Option χ) (cost : Option ℚ) :
    Oracle χ β × Option PyErr :=
  if ty label ≠ o.labelTy then (o, some .typeError)
  else
    match o.exa2ind, ex with
    | some _, none => (o, some .genericException)
    | d, ex =>
      let o := { o with exa2ind := match d, ex with
        | some d, some x => some (dictSet x index d)
        | d, _ => d }
      match o.table, cost with
      | .cost _, none => (o, some .genericException)
      | .cost t, some c => ({ o with table := .cost (dictSet index (label, c) t) }, none)
      | .plain t, _ => ({ o with table := .plain (dictSet index label t) }, none)

/-- What one entry of an `add_knowledge` call consists of. oracle.py lines 172-173. -/
structure Entry (χ β : Type) where
  index : Key
  label : β
  ex : Option χ
  cost : Option ℚ
  deriving DecidableEq, Repr

/-- The loop of lines 171-173. -/
def addAll (ty : β → Nat) (o : Oracle χ β) : List (Entry χ β) → Oracle χ β × Option PyErr
  | [] => (o, none)
  | e :: r =>
    match addOne ty o e.label e.index e.ex e.cost with
    | (o', some err) => (o', some err)
    | (o', none) => addAll ty o' r

/-- The entries of a call with lists of one length. oracle.py lines 171-173. -/
def entries : List β → List Key → Option (List χ) → Option (List ℚ) → List (Entry χ β)
  | l :: ls, i :: is, xs, cs =>
    ⟨i, l, xs.bind List.head?, cs.bind List.head?⟩ :: entries ls is (xs.map List.tail) (cs.map List.tail)
  | _, _, _, _ => []

/-- `add_knowledge` with list arguments, oracle.py lines 141-173. `unpack` turns lists with one element into that element, which
is then added by the other branch in the same way. Simplified: lists of different lengths are refused also if there is exactly
one index (the code would take the whole list of labels as one label then). -/
def addKnowledge (ty : β → Nat) (o : Oracle χ β) (labels : List β) (indexes : List Key) (examples : Option (List χ))
    (cost : Option (List ℚ)) : Oracle χ β × Option PyErr :=
  if !(sameLength labels.length (some indexes) && sameLength labels.length examples && sameLength labels.length cost) then
    (o, some .valueError)
  else addAll ty o (entries labels indexes examples cost)

/-- The answer for one index, lines 197-205; `_do_missing` (lines 241-252) applies `%` to a string without placeholder and so
raises TypeError. -/
def ask (o : Oracle χ β) (k : Key) : Except PyErr (β × ℚ) :=
  match o.table with
  | .cost t =>
    match dictGet k t with
    | some (l, c) => .ok (l, c)
    | none => .error .typeError
  | .plain t =>
    match dictGet k t with
    | some l => .ok (l, 1)
    | none => .error .typeError

/-- `query_by_index`, oracle.py lines 175-206, on a list of indexes. -/
def queryByIndex (o : Oracle χ β) : List Key → Except PyErr (List β × List ℚ)
  | [] => .ok ([], [])
  | k :: r =>
    match o.ask k with
    | .error e => .error e
    | .ok (l, c) =>
      match o.queryByIndex r with
      | .error e => .error e
      | .ok (ls, cs) => .ok (l :: ls, c :: cs)

/-- The loop of lines 233-238: the indexes of the examples. -/
def lookupExamples (d : List (χ × Key)) : List χ → Except PyErr (List Key)
  | [] => .ok []
  | x :: r =>
    match dictGet x d with
    | none => .error .typeError
    | some k =>
      match lookupExamples d r with
      | .error e => .error e
      | .ok ks => .ok (k :: ks)

/-- `query_by_example`, oracle.py lines 208-239, on a list of examples. -/
def queryByExample (o : Oracle χ β) (xs : List χ) : Except PyErr (List β × List ℚ) :=
  match o.exa2ind with
  | none => .error .genericException
  | some d =>
    match lookupExamples d xs with
    | .error e => .error e
    | .ok ks => o.queryByIndex ks

end Oracle

/-! ## `OracleQueryMultiLabel` -/

/-- A row of costs: a numpy array or a Python list. oracle.py lines 342 and 457. -/
structure CostRow where
  np : Bool
  vals : List ℚ
  deriving DecidableEq, Repr

/-- The `cost` argument of the constructor: one cost per label (a 1-D array as long as there are labels) or one row per
example. oracle.py lines 336-344. -/
inductive CostArg where
  | perLabel (row : CostRow)
  | matrix (rows : List CostRow)
  deriving DecidableEq, Repr

/-- An `OracleQueryMultiLabel` object. `labelCost` is `_label_cost`, present if `_fine_grained_cost` is False. oracle.py lines 333-345. -/
structure MLOracle (χ β : Type) where
  exa2ind : Option (List (χ × Int))
  width : Nat
  labelCost : Option CostRow
  table : Table Int (List β) CostRow
  deriving DecidableEq, Repr

/-- Fancy indexing of a 1-D numpy array with a list of non-negative positions. oracle.py lines 456 and 459. -/
def fancy {α : Type} (l : List α) : List Nat → Except PyErr (List α)
  | [] => .ok []
  | i :: r =>
    match l[i]? with
    | none => .error .indexError
    | some x =>
      match fancy l r with
      | .error e => .error e
      | .ok xs => .ok (x :: xs)

/-- The same on a row of costs: a Python list cannot be indexed by a list (TypeError). oracle.py line 457. -/
def CostRow.fancy (c : CostRow) (is : List Nat) : Except PyErr (List ℚ) :=
  if c.np then Alipy.fancy c.vals is else .error .typeError

namespace MLOracle
variable {χ β : Type} [DecidableEq χ]

/-- Line 69 for integer indexes. -/
def defaultIndexes (n : Nat) : List Int := (List.range n).map (fun i : Nat => (i : Int))

/-- `OracleQueryMultiLabel(labels, examples, indexes, cost)`, oracle.py lines 333-345 and 55-80. The labels are a matrix
(`check_array` refuses ragged or empty ones). One cost per label is tiled to a numpy matrix. Simplified: a 1-D cost argument of
another length than the number of labels is refused (the code refuses it only if its length is not the number of examples). -/
def new (labels : List (List β)) (examples : Option (List χ)) (indexes : Option (List Int)) (cost : Option CostArg) :
    Except PyErr (MLOracle χ β) :=
  match labels with
  | [] => .error .valueError
  | row :: _ =>
    let w := row.length
    if w = 0 || !(labels.all (fun r => r.length = w)) then .error .valueError
    else if !(sameLength labels.length examples && sameLength labels.length indexes) then .error .valueError
    else
      let ix := indexes.getD (defaultIndexes labels.length)
      let ex := examples.map (fun xs => dictOfList (xs.zip ix))
      match cost with
      | none => .ok ⟨ex, w, none, .plain (dictOfList (ix.zip labels))⟩
      | some (.perLabel c) =>
        if c.vals.length ≠ w then .error .valueError
        else .ok ⟨ex, w, some c, .cost (dictOfList (ix.zip (labels.zip (List.replicate labels.length ⟨true, c.vals⟩))))⟩
      | some (.matrix rows) =>
        if rows.length ≠ labels.length then .error .valueError
        else .ok ⟨ex, w, none, .cost (dictOfList (ix.zip (labels.zip rows)))⟩

/-- `index in self._ind2all.keys()`. oracle.py lines 368 and 454. -/
def knows (o : MLOracle χ β) (i : Int) : Bool :=
  match o.table with
  | .plain t => (dictGet i t).isSome
  | .cost t => (dictGet i t).isSome

/-- `_add_one_entry`, oracle.py lines 347-395. A known index is skipped with a warning. -/
def addOne (o : MLOracle χ β) (label : List β) (index : Int) (ex : Option χ) (cost : Option CostRow) :
    MLOracle χ β × Option PyErr :=
  if o.knows index then (o, none)
  else if label.length ≠ o.width then (o, some .valueError)
  else
    match o.exa2ind, ex with
    | some _, none => (o, some .genericException)
    | d, ex =>
      let o := { o with exa2ind := match d, ex with
        | some d, some x => some (dictSet x index d)
        | d, _ => d }
      match o.table with
      | .plain t => ({ o with table := .plain (dictSet index label t) }, none)
      | .cost t =>
        match cost.or o.labelCost with
        | none => (o, some .genericException)
        | some c =>
          if c.vals.length ≠ o.width then (o, some .valueError)
          else ({ o with table := .cost (dictSet index (label, c) t) }, none)

/-- The label positions of an index, lines 437-451, with the check of its length. The first component of the tuple is an index
(`inl`) or, in the calls from `query_by_example`, a tuple of features (`inr`). -/
def labelInd (w : Nat) : Ix → Except PyErr (List Nat)
  | .nil => .error .valueError
  | .longer _ _ => .error .valueError
  | .all _ => .ok (List.range w)
  | .pair _ (.scal l) => if 0 ≤ l ∧ l < w then .ok [l.toNat] else .error .assertionError
  | .pair _ (.iter _ ls) => .ok ((ls.filter (fun l => decide (0 ≤ l ∧ l < (w : Int)))).map Int.toNat)

/-- Fetching the data of one index, lines 454-462; `key = none` for a key that is not an index. -/
def fetch (o : MLOracle χ β) (key : Option Int) (is : List Nat) : Except PyErr (List β × List ℚ) :=
  match o.table with
  | .cost t =>
    match key.bind (fun i => dictGet i t) with
    | none => .error .typeError
    | some (row, c) =>
      match fancy row is with
      | .error e => .error e
      | .ok ls =>
        match c.fancy is with
        | .error e => .error e
        | .ok cs => .ok (ls, cs)
  | .plain t =>
    match key.bind (fun i => dictGet i t) with
    | none => .error .typeError
    | some row =>
      match fancy row is with
      | .error e => .error e
      | .ok ls => .ok (ls, List.replicate is.length 1)

/-- The first component of a tuple. oracle.py line 443. -/
def ixKey : Ix → Option Int
  | .nil => none
  | .all e => some e
  | .pair e _ => some e
  | .longer e _ => some e

/-- The loop of lines 435-462. -/
def queryLoop (o : MLOracle χ β) : List Ix → Except PyErr (List (List β) × List (List ℚ))
  | [] => .ok ([], [])
  | ix :: r =>
    match labelInd o.width ix with
    | .error e => .error e
    | .ok is =>
      match o.fetch (ixKey ix) is with
      | .error e => .error e
      | .ok (l, c) =>
        match o.queryLoop r with
        | .error e => .error e
        | .ok (ls, cs) => .ok (l :: ls, c :: cs)

/-- `query_by_index`, oracle.py lines 397-463, on a list of indexes. -/
def queryByIndex (o : MLOracle χ β) (items : List Item) : Except PyErr (List (List β) × List (List ℚ)) :=
  match checkIndexMultilabel items with
  | .error e => .error e
  | .ok ixs => o.queryLoop ixs

/-- The tuple passed on by `query_by_example` with the first component left out. oracle.py lines 508-511. -/
def exIx : Option Second → Ix
  | none => .all 0
  | some s => .pair 0 s

/-- The query `(example_fea,)` / `(example_fea, labels)` that `query_by_example` passes on, lines 504-514 and 454-462: the first component
remains the tuple of features, which is no index. -/
def queryLoopEx (o : MLOracle χ β) : List (Option Second) → Except PyErr (List (List β) × List (List ℚ))
  | [] => .ok ([], [])
  | s :: r =>
    match labelInd o.width (exIx s) with
    | .error e => .error e
    | .ok is =>
      match o.fetch none is with
      | .error e => .error e
      | .ok (l, c) =>
        match o.queryLoopEx r with
        | .error e => .error e
        | .ok (ls, cs) => .ok (l :: ls, c :: cs)

/-- `query_by_example`, oracle.py lines 465-514, on a list of `(features,)` / `(features, labels)`. An empty list is refused by
`check_index_multilabel`. -/
def queryByExample (o : MLOracle χ β) (qs : List (χ × Option Second)) : Except PyErr (List (List β) × List (List ℚ)) :=
  match o.exa2ind with
  | none => .error .genericException
  | some d =>
    if qs.any (fun q => (dictGet q.1 d).isNone) then .error .typeError
    else if qs.isEmpty then .error .typeError
    else o.queryLoopEx (qs.map Prod.snd)

end MLOracle

/-! ## `Oracles` -/

/-- The costs of an answer: one number per index (`Oracle`) or one array per index (`OracleQueryMultiLabel`). oracle.py lines 203 and 460. -/
inductive Costs where
  | flat (cs : List ℚ)
  | rows (cs : List (List ℚ))
  deriving DecidableEq, Repr

/-- `np.asarray(costs)` has a regular shape. oracle.py lines 581 and 612. -/
def Costs.regular : Costs → Bool
  | .flat _ => true
  | .rows [] => true
  | .rows (r :: rs) => rs.all (fun x => x.length = r.length)

/-- All numbers of an answer. oracle.py line 581. -/
def Costs.nums : Costs → List ℚ
  | .flat cs => cs
  | .rows cs => cs.flatten

/-- The shape of the array of costs. oracle.py line 612. -/
def Costs.shape : Costs → List Nat
  | .flat cs => [cs.length]
  | .rows [] => [0]
  | .rows (r :: rs) => [rs.length + 1, r.length]

/-- `np.sum(np.asarray(costs).flatten())`, line 581. For arrays of different lengths numpy raises ValueError (before numpy 1.24
it made an array of objects whose sum is not a number). -/
def Costs.npSum (c : Costs) : Except PyErr ℚ :=
  if c.regular then .ok c.nums.sum else .error .valueError

/-- `np.sum(np.array([result[1] for result in results]).flatten())`, line 612: all arrays must have one shape. -/
def npSumAll (cs : List Costs) : Except PyErr ℚ :=
  match cs with
  | [] => .ok 0
  | c :: r =>
    if c.regular && r.all (fun d => d.regular && d.shape = c.shape) then .ok ((c :: r).map (fun d => d.nums.sum)).sum
    else .error .valueError

/-- An answer: labels and costs. oracle.py lines 206 and 463. -/
structure Answer (β : Type) where
  labels : β
  costs : Costs
  deriving DecidableEq, Repr

/-- One entry of `query_history`. oracle.py lines 621-623. -/
structure Record (β ι : Type) where
  names : List String
  results : List (Answer β)
  query : ι
  deriving DecidableEq, Repr

/-- An `Oracles` object, oracle.py lines 517-527. An oracle is what `query_by_index` answers. -/
structure Oracles (β ι : Type) where
  dict : List (String × (ι → Except PyErr (Answer β)))
  cost : ℚ
  history : List (Record β ι)

namespace Oracles
variable {β ι : Type}

/-- Lines 524-527. -/
def empty : Oracles β ι := ⟨[], 0, []⟩

/-- `add_oracle`, lines 539-553. -/
def addOracle (o : Oracles β ι) (name : String) (f : ι → Except PyErr (Answer β)) : Oracles β ι :=
  { o with dict := dictSet name f o.dict }

/-- Query one oracle by name. oracle.py lines 578 and 609. -/
def askOne (o : Oracles β ι) (q : ι) (name : String) : Except PyErr (Answer β) :=
  match dictGet name o.dict with
  | none => .error .keyError
  | some f => f q

/-- `query_from`, lines 555-582: query, append to the history, add to the cost, in this order. `pick` is the random choice made
if no name is given (ValueError if there is no oracle). -/
def queryFrom (o : Oracles β ι) (pick : List String → String) (q : ι) (name : Option String) :
    Oracles β ι × Except PyErr (Answer β) :=
  match name, o.dict with
  | none, [] => (o, .error .valueError)
  | _, _ =>
    let n := name.getD (pick (o.dict.map Prod.fst))
    match o.askOne q n with
    | .error e => (o, .error e)
    | .ok r =>
      let o := { o with history := o.history ++ [⟨[n], [r], q⟩] }
      match r.costs.npSum with
      | .error e => (o, .error e)
      | .ok c => ({ o with cost := o.cost + c }, .ok r)

/-- The loop of lines 608-609. -/
def askAll (o : Oracles β ι) (q : ι) : List String → Except PyErr (List (Answer β))
  | [] => .ok []
  | n :: r =>
    match o.askOne q n with
    | .error e => .error e
    | .ok a =>
      match o.askAll q r with
      | .error e => .error e
      | .ok as => .ok (a :: as)

/-- `query_from_s`, lines 584-613. -/
def queryFromS (o : Oracles β ι) (q : ι) (names : Option (List String)) : Oracles β ι × Except PyErr (List (Answer β)) :=
  let ns := names.getD (o.dict.map Prod.fst)
  match o.askAll q ns with
  | .error e => (o, .error e)
  | .ok rs =>
    let o := { o with history := o.history ++ [⟨ns, rs, q⟩] }
    match npSumAll (rs.map Answer.costs) with
    | .error e => (o, .error e)
    | .ok c => ({ o with cost := o.cost + c }, .ok rs)

/-- The table built by `__repr__`, lines 633-641: for each oracle the number of its answers and their cost. -/
def summaryOf (o : Oracles β ι) (name : String) : Nat × ℚ :=
  let answers := (o.history.flatMap (fun h => h.names.zip h.results)).filter (fun p => p.1 == name)
  (answers.length, (answers.map (fun p => p.2.costs.nums.sum)).sum)

end Oracles
end Alipy

import Verif.Model.Split
import Verif.Model.MultiLabel
import Verif.Model.Session

/-! # Model of `alipy/toolbox.py`: construction, saving, splitting, and the objects made from a toolbox

Labels are integers. A path is an absolute path; whether it is a directory does not change. `χ` is the type of the rows of the feature
matrix, `width` its number of columns. -/
namespace Alipy.TB
variable {χ : Type}

/-- An element of an index set: the index of an instance, or an index tuple. toolbox.py lines 229-258. -/
inductive Elem where
  | inst (i : Int)
  | tup (ix : Ix)
  deriving DecidableEq, Repr

/-- As an item of a list given to a multi-label collection. toolbox.py lines 290-297. -/
def Elem.toItem : Elem → Item
  | .inst _ => .other
  | .tup ix => .tup ix

/-- The four attributes `train_idx`, `test_idx`, `label_idx`, `unlabel_idx`. toolbox.py lines 154-157. -/
structure Splits where
  train : List (List Int)
  test : List (List Int)
  label : List (List Elem)
  unlabel : List (List Elem)
  deriving DecidableEq, Repr

/-- The keyword arguments of the constructor, toolbox.py lines 145-149. -/
structure Given where
  train : Option (List (List Int)) := none
  test : Option (List (List Int)) := none
  label : Option (List (List Elem)) := none
  unlabel : Option (List (List Elem)) := none
  deriving DecidableEq, Repr

/-- A `ToolBox` object. `splits = none` is `_split = False`; `count` is the attribute `split_count`, which may not exist. Lines 100-161. -/
structure Box (χ : Type) where
  y : YArr
  X : Option (List χ)
  width : Int
  names : List Int
  qtype : String
  splits : Option Splits
  count : Option Nat
  path : Option String

/-- The disk: which paths are directories, and the pickled toolboxes. A toolbox saved in the directory `p` (as `al_settings.pkl`) is kept
under `p`. Lines 162-184 and 533-543. -/
structure Disk (χ : Type) where
  isDir : String → Bool
  boxes : String → Option (Box χ)

/-- Lines 103-105: a label matrix with one row or one column is flattened. -/
def squeeze : YArr → YArr
  | .vec ys => .vec ys
  | .mat c rows => if rows.length = 1 ∨ c = 1 then .vec rows.flatten else .mat c rows

/-- `len(self._y)`. Line 111. -/
def ylen : YArr → Nat
  | .vec ys => ys.length
  | .mat _ rows => rows.length

/-- `check_query_type`, query_type.py lines 26-64. -/
def checkQueryType (s : String) : Bool := s == "AllLabels" || s == "PartLabels" || s == "Features"

/-- Lines 144-158: the given splits are used if all four are there. -/
def takeGiven (g : Given) : Except PyErr (Option Splits) :=
  match g.train, g.test, g.label, g.unlabel with
  | some a, some b, some c, some d =>
    if a.length = b.length ∧ b.length = c.length ∧ c.length = d.length then .ok (some ⟨a, b, c, d⟩) else .error .valueError
  | _, _, _, _ => .ok none

/-- `save`, lines 533-543. -/
def save (d : Disk χ) (b : Box χ) : Disk χ :=
  match b.path with
  | none => d
  | some p => { d with boxes := fun q => if q = p then some b else d.boxes q }

/-- The constructor without the part about saving, lines 100-158. `check_array` of empty labels is left out. -/
def make (y : YArr) (X : Option (List χ)) (width : Int) (names : Option (List Int)) (qtype : String) (g : Given) (path : Option String) :
    Except PyErr (Box χ) :=
  let y := squeeze y
  match X with
  | some xs => if xs.length ≠ ylen y then .error .valueError else rest y
  | none => rest y
where
  rest (y : YArr) : Except PyErr (Box χ) :=
    match names with
    | some ns => if ns.length ≠ ylen y then .error .valueError else rest' y ns
    | none => rest' y (pyRange 0 (ylen y))
  rest' (y : YArr) (ns : List Int) : Except PyErr (Box χ) :=
    if !(checkQueryType qtype) then .error .notImplementedError
    else if qtype = "Features" ∧ X = none then .error .genericException
    else
      match takeGiven g with
      | .error e => .error e
      | .ok s => .ok ⟨y, X, width, ns, qtype, s, s.map (fun s => s.train.length), path⟩

/-- The constructor, lines 79-184: if there is a saved toolbox under the path its attributes are taken, otherwise the new one is saved. -/
def new (d : Disk χ) (y : YArr) (X : Option (List χ)) (width : Int) (names : Option (List Int)) (qtype : String) (g : Given)
    (path : Option String) : Disk χ × Except PyErr (Box χ) :=
  match make y X width names qtype g path with
  | .error e => (d, .error e)
  | .ok b =>
    match path with
    | none => (d, .ok b)
    | some p =>
      match d.boxes p with
      | some old => (d, .ok old)
      | none => (save d b, .ok b)

/-- `ToolBox.load`, lines 604-623. -/
def load (d : Disk χ) (p : String) : Except PyErr (Box χ) :=
  match d.boxes p with
  | none => .error .fileNotFoundError
  | some b => .ok b

/-- The rounds of an instance split as attributes. Lines 231-239. -/
def ofRounds (f : Int → Elem) (rs : List (Round Int)) : Splits :=
  ⟨rs.map Round.train, rs.map Round.test, rs.map (fun r => r.label.map f), rs.map (fun r => r.unlabel.map f)⟩

/-- The call of a splitting function in `split_AL`, lines 229-258. The type of the target is never `'Features'`, so that line 251 is not
reached. -/
def callSplit (b : Box χ) (tr rate : ℚ) (ac : Bool) (shs : List (List Sh)) : Option (Except PyErr Splits) :=
  match b.y with
  | .vec ys => (split b.names (some (.vec ys)) tr rate ac shs).map (fun r => r.map (ofRounds .inst))
  | .mat c rows => (splitMultiLabel rows.length c (some rows) tr rate ac shs).map (fun r => r.map (ofRounds (fun i => .tup (.all i))))

/-- `split_save` only accepts a directory, al_split.py lines 455-472. -/
def pathOk (d : Disk χ) (b : Box χ) : Bool :=
  match b.path with
  | none => true
  | some p => d.isDir p

/-- `split_AL`, lines 186-261; `none`: no shuffle is accepted. `split_count` is stored before the split is made. -/
def splitAL (d : Disk χ) (b : Box χ) (tr rate : ℚ) (ac : Bool) (shs : List (List Sh)) : Option (Disk χ × Box χ × Except PyErr Splits) :=
  match b.splits with
  | some s => some (d, b, .ok s)
  | none =>
    let b := { b with count := some shs.length }
    match callSplit b tr rate ac shs with
    | none => none
    | some (.error e) => some (d, b, .error e)
    | some (.ok s) =>
      if pathOk d b then
        let b := { b with splits := some s }
        some (save d b, b, .ok s)
      else some (d, b, .error .genericException)

/-- The labelled and the unlabelled set of one round. Lines 289-300. -/
inductive Sets where
  | single (L U : IC)
  | multi (L U : MLIC)
  deriving DecidableEq, Repr

/-- The elements as numbers (rows of an integer array). Tuples in an `IndexCollection` are not modelled; they are left out. Lines 299-300. -/
def toVals (l : List Elem) : List Val :=
  l.filterMap (fun e => match e with
    | .inst i => some ⟨true, .int i⟩
    | .tup _ => none)

/-- `get_split(round)`, lines 263-300: the constructor of `FeatureIndexCollection` (index_collections.py lines 663-667) turns every
exception into `Exception`. -/
def getSplit (b : Box χ) (round : Nat) : Except PyErr (List Int × List Int × Sets) :=
  match b.splits, b.count with
  | none, _ => .error .genericException
  | some _, none => .error .attributeError
  | some s, some n =>
    if n ≤ round then .error .assertionError
    else
      match s.train[round]?, s.test[round]?, s.label[round]?, s.unlabel[round]? with
      | some tr, some te, some l, some u =>
        if b.qtype = "Features" then
          match MLIC.mk' (l.map Elem.toItem) (some b.width), MLIC.mk' (u.map Elem.toItem) (some b.width) with
          | .ok L, .ok U => .ok (tr, te, .multi L U)
          | _, _ => .error .genericException
        else
          match b.y with
          | .mat c _ =>
            match MLIC.mk' (l.map Elem.toItem) (some c), MLIC.mk' (u.map Elem.toItem) (some c) with
            | .ok L, .ok U => .ok (tr, te, .multi L U)
            | .error e, _ => .error e
            | _, .error e => .error e
          | .vec _ => .ok (tr, te, .single (IC.mk' (toVals l)) (IC.mk' (toVals u)))
      | _, _, _, _ => .error .indexError

/-- What oracle `get_clean_oracle` constructs, and from which arguments. Lines 314-322. -/
inductive OracleCall (χ κ : Type) where
  | single (labels : List Int) (examples : Option (List χ)) (cost : Option κ)
  | multi (rows : List (List Int)) (examples : Option (List χ)) (cost : Option κ)
  | features (mat : Option (List χ)) (cost : Option κ)

/-- `get_clean_oracle`, lines 305-322; the last branch returns `None`. -/
def getCleanOracle {κ : Type} (b : Box χ) (byExample : Bool) (cost : Option κ) : Option (OracleCall χ κ) :=
  if b.qtype = "Features" then some (.features b.X cost)
  else if b.qtype = "AllLabels" then
    match b.y with
    | .mat _ rows => some (if byExample then .multi rows b.X cost else .multi rows none none)
    | .vec ys => some (if byExample then .single ys b.X cost else .single ys none none)
  else none

/-- The key of an element of an `IndexCollection` as a position in an array. Lines 378 and 382. -/
def position : Key → Int
  | .num n => n
  | .str _ => 0

/-- `MatrixRepository(labels=self._y[pairs], ...)` for a label matrix and a list of pairs, lines 378-380, as far as it raises. numpy (of the time of the code)
takes a list of fewer than 32 tuples as one tuple of index arrays, one for each axis, of which a matrix has two; a longer list is an array of two columns, each number picks a
row, and the array of three dimensions is refused by `check_array` (knowledge_repository.py line 346). With no pair `check_array` refuses the empty array, with one
pair there are two rows for one index (line 343). Two pairs are not modelled. -/
def pairRepository (rows : List (List Int)) (ps : List (Int × Second)) : PyErr :=
  if ps.length < 32 then
    match ps with
    | [] => .valueError
    | [_] => .valueError
    | [_, _] => .genericException
    | _ => .indexError
  else if ps.all (fun p => (pyAt rows p.1).isSome && (match p.2 with | .scal l => (pyAt rows l).isSome | .iter _ _ => false)) then .valueError
  else .indexError

/-- `get_repository(round)` without examples, lines 356-384: the labels at the labelled indexes. `inl` is a
`MatrixRepository`, `inr` an `ElementRepository`. For a label matrix only the errors of `MatrixRepository` are modelled. -/
def getRepository (b : Box χ) (round : Nat) : Except PyErr (MRepo Key Int ⊕ ERepo Key Int Unit) :=
  match getSplit b round, b.y with
  | .error e, _ => .error e
  | .ok (_, _, .single L _), .vec ys =>
    let ks := L.inner.map Val.key
    match pyAtAll ys (ks.map position) with
    | .error e => .error e
    | .ok labels =>
      if b.qtype = "AllLabels" then (MRepo.new (labels.map Lab.sc) ks none).map Sum.inl
      else (ERepo.new labels ks none).map Sum.inr
  | .ok (_, _, .multi L _), .mat _ rows => .error (pairRepository rows L.inner)
  | .ok _, _ => .error .genericException

end Alipy.TB

import Verif.Model.Misc
import Verif.Model.MultiLabelTools
/-!
# Data splits: `alipy/data_manipulate/al_split.py`

Instance indexes are integers (names of another type behave the same where they are not used to index `y`). `np.random.shuffle` is a
parameter: every `randperm` call takes its shuffle from a list; a `while 1` loop that has used up its list has not ended yet, which is
the outcome `none`. Ratios are exact rationals. Saving is modelled separately (`splitSave`, `splitLoad`).
-/
namespace Alipy

abbrev Sh := List Int → List Int

/-- One round of a split. al_split.py:107-122. -/
structure Round (β : Type) where
  train : List Int
  test : List Int
  label : List β
  unlabel : List β
  deriving DecidableEq, Repr

/-- `instance_indexes[rp[..]]`: integer fancy indexing (positions are never negative here). al_split.py:115 and 117. -/
def pick (names : List Int) (ps : List Int) : Except PyErr (List Int) := pickAll names ps

/-- Python's integer indexing of a sequence, negative positions counting from the end. al_split.py:146. -/
def pyAt {α : Type} (l : List α) (i : Int) : Option α :=
  if 0 ≤ i then l[i.toNat]? else if -(l.length : Int) ≤ i then l[((l.length : Int) + i).toNat]? else none

/-- `y[label_id]` with a list of integers. al_split.py:146 and 149. -/
def pyAtAll {α : Type} (l : List α) : List Int → Except PyErr (List α)
  | [] => .ok []
  | i :: is =>
    match pyAt l i with
    | none => .error .indexError
    | some v => (pyAtAll l is).map (fun vs => v :: vs)

/-- al_split.py:114-117, 139-140: the train / test cut. -/
def cutTrain (sh : Sh) (names : List Int) (testRatio : ℚ) : Except PyErr (List Int × List Int) :=
  match randperm sh (.int ((names.length : Int) - 1)) .default with
  | .error e => .error e
  | .ok rp =>
    let cut := pyRound ((1 - testRatio) * rp.length)
    match pick names (pySliceTo rp cut) with
    | .error e => .error e
    | .ok train =>
      match pick names (pySliceFrom rp cut) with
      | .error e => .error e
      | .ok test => .ok (train, test)

/-- al_split.py:118-120, 141-143: the number of initially labelled instances. -/
def cutLabel (rate : ℚ) (trainSize : Nat) : Int :=
  if pyRound (rate * trainSize) ≤ 1 then 1 else pyRound (rate * trainSize)

/-- al_split.py:113-122: a totally random round. -/
def randomRound (sh : Sh) (names : List Int) (testRatio rate : ℚ) : Except PyErr (Round Int) :=
  match cutTrain sh names testRatio with
  | .error e => .error e
  | .ok (train, test) =>
    .ok ⟨train, test, pySliceTo train (cutLabel rate train.length), pySliceFrom train (cutLabel rate train.length)⟩

/-- The labels given to `split`: one per instance or a matrix. al_split.py:126-130. -/
inductive YArr where
  | vec (ys : List Int)
  | mat (cols : Nat) (rows : List (List Int))

/-- Number of different values (`len(np.unique(..))`). al_split.py:128. -/
def numUnique (l : List Int) : Nat := l.eraseDups.length

/-- al_split.py:127-130: the number of classes. -/
def YArr.labelNum : YArr → Nat
  | .vec ys => numUnique ys
  | .mat c _ => c

/-- `np.sum(rows, axis=0)`, column `j`. al_split.py:149. -/
def colSum (rows : List (List Int)) (j : Nat) : Int := (rows.map (fun r => r.getD j 0)).sum

/-- al_split.py:144-151: whether the chosen instances contain all classes. `y` is indexed by the instance indexes themselves. -/
def YArr.covers (y : YArr) (labelId : List Int) : Except PyErr Bool :=
  match y with
  | .vec ys => (pyAtAll ys labelId).map (fun vs => numUnique vs = numUnique ys)
  | .mat c rows => (pyAtAll rows labelId).map (fun rs => (List.range c).all (fun j => colSum rs j ≠ 0))

/-- al_split.py:137-155: the loop `while 1`, over the shuffles it gets. -/
def coverLoop (names : List Int) (y : YArr) (testRatio rate : ℚ) : List Sh → Option (Except PyErr (Round Int))
  | [] => none
  | sh :: shs =>
    match randomRound sh names testRatio rate with
    | .error e => some (.error e)
    | .ok r =>
      match y.covers r.label with
      | .error e => some (.error e)
      | .ok true => some (.ok r)
      | .ok false => coverLoop names y testRatio rate shs

/-- One round of `split`, al_split.py:112-155. A random round uses one shuffle. -/
def splitRound (names : List Int) (y : Option YArr) (testRatio rate : ℚ) (allClass : Bool) (shs : List Sh) :
    Option (Except PyErr (Round Int)) :=
  match y, allClass with
  | some y, true =>
    if pyRound ((1 - testRatio) * rate * names.length) < y.labelNum then some (.error .valueError)
    else coverLoop names y testRatio rate shs
  | _, _ => shs.head?.map (fun sh => randomRound sh names testRatio rate)

/-- Run rounds one after the other, each with its own shuffles. al_split.py:111 and 236. -/
def runRounds {ρ : Type} (f : List ρ → Option (Except PyErr β)) : List (List ρ) → Option (Except PyErr (List β))
  | [] => some (.ok [])
  | shs :: r =>
    match f shs with
    | none => none
    | some (.error e) => some (.error e)
    | some (.ok b) =>
      match runRounds f r with
      | none => none
      | some (.error e) => some (.error e)
      | some (.ok bs) => some (.ok (b :: bs))

/-- al_split.py:28-159 `split`, for given instance indexes (`np.arange(n)` if none are given, line 104) and without the query type check.
`shs` has one list of shuffles per round (`split_count` is its length). `y`, if given, has one label per instance index (checked at
lines 87-91). -/
def split (names : List Int) (y : Option YArr) (testRatio rate : ℚ) (allClass : Bool) (shs : List (List Sh)) :
    Option (Except PyErr (List (Round Int))) :=
  runRounds (splitRound names y testRatio rate allClass) shs

/-! ## Multi-label and feature splits -/

/-- Number of different labels among the encoded pairs, al_split.py:250. -/
def numLabels (L : Nat) (items : List Int) : Nat := numUnique (items.map (fun i => i % L))

/-- al_split.py:262-263: the pairs of the encoded positions. -/
def decodePairs (train : List Int) (L : Nat) (items : List Int) : Except PyErr (List (Int × Int)) :=
  match pick train (items.map (fun i => i / L)) with
  | .error e => .error e
  | .ok is => .ok (is.zip (items.map (fun i => i % L)))

/-- al_split.py:258-263: the round made of a training set and the encoded labelled pairs. The unlabelled ones are the other positions
(a Python `set`, whose iteration order is represented by the ascending one). -/
def pairRound (train test : List Int) (L : Nat) (labInd : List Int) : Except PyErr (Round (Int × Int)) :=
  let unlab := (pyRange 0 ((train.length * L : Nat) : Int)).filter (fun i => decide (i ∉ labInd))
  match decodePairs train L labInd, decodePairs train L unlab with
  | .ok a, .ok b => .ok ⟨train, test, a, b⟩
  | .error e, _ => .error e
  | .ok _, .error e => .error e

/-- One attempt: the train / test cut and `k` labelled positions out of `train_size * L`. `k` depends on the training size. al_split.py:239-245 and 252-257. -/
def pairTry (sh : Sh × Sh) (n L : Nat) (testRatio : ℚ) (k : Nat → Int) : Except PyErr (List Int × List Int × List Int) :=
  match cutTrain sh.1 (pyRange 0 n) testRatio with
  | .error e => .error e
  | .ok (train, test) =>
    match randperm sh.2 (.pair (some 0) (((train.length * L : Nat) : Int) - 1)) (.int (k train.length)) with
    | .error e => .error e
    | .ok lab => .ok (train, test, lab)

/-- al_split.py:250-257: the loop that tries again until all labels occur. It asks for `round(rate * train_size)` positions, not for
`round(rate * train_size * L)`. -/
def pairLoop (n L : Nat) (testRatio rate : ℚ) (cur : List Int × List Int × List Int) :
    List (Sh × Sh) → Option (Except PyErr (Round (Int × Int)))
  | [] => if numLabels L cur.2.2 = L then some (pairRound cur.1 cur.2.1 L cur.2.2) else none
  | sh :: r =>
    if numLabels L cur.2.2 = L then some (pairRound cur.1 cur.2.1 L cur.2.2)
    else
      match pairTry sh n L testRatio (fun t => pyRound (rate * t)) with
      | .error e => some (.error e)
      | .ok cur' => pairLoop n L testRatio rate cur' r

/-- al_split.py:237-263, one round with `partially_labeled=True`. -/
def pairSplitRound (n L : Nat) (testRatio rate : ℚ) (allClass : Bool) (shs : List (Sh × Sh)) :
    Option (Except PyErr (Round (Int × Int))) :=
  match shs with
  | [] => none
  | sh :: r =>
    match pairTry sh n L testRatio (fun t => pyRound (rate * (t * L : Nat))) with
    | .error e => some (.error e)
    | .ok cur =>
      if allClass then
        if pyRound (rate * cur.1.length) < L then some (.error .valueError) else pairLoop n L testRatio rate cur r
      else some (pairRound cur.1 cur.2.1 L cur.2.2)

/-- al_split.py:296-349 `split_features` on a matrix of `n` instances and `L` features. -/
def splitFeatures (n L : Nat) (testRatio missing : ℚ) (all : Bool) (shs : List (List (Sh × Sh))) :
    Option (Except PyErr (List (Round (Int × Int)))) :=
  runRounds (pairSplitRound n L testRatio (1 - missing) all) shs

/-- al_split.py:278-281: whether every column of the chosen rows has a non-zero sum; the rows are missing if only the shape was given. -/
def rowCheck (L : Nat) (rows : Option (List (List Int))) (labelId : List Int) : Except PyErr Bool :=
  match rows with
  | none => .error .typeError
  | some rs => (pyAtAll rs labelId).map (fun chosen => (List.range L).all (fun j => colSum chosen j ≠ 0))

/-- al_split.py:277-286: the loop of the fully labelled case. `cut` is clamped to at least 1 only before the loop. -/
def rowLoop (n L : Nat) (rows : Option (List (List Int))) (testRatio rate : ℚ) (train test : List Int) (cut : Int) :
    List Sh → Option (Except PyErr (Round Int))
  | [] =>
    match rowCheck L rows (pySliceTo train cut) with
    | .error e => some (.error e)
    | .ok true => some (.ok ⟨train, test, pySliceTo train cut, pySliceFrom train cut⟩)
    | .ok false => none
  | sh :: r =>
    match rowCheck L rows (pySliceTo train cut) with
    | .error e => some (.error e)
    | .ok true => some (.ok ⟨train, test, pySliceTo train cut, pySliceFrom train cut⟩)
    | .ok false =>
      match cutTrain sh (pyRange 0 n) testRatio with
      | .error e => some (.error e)
      | .ok (train', test') => rowLoop n L rows testRatio rate train' test' (pyRound (rate * train'.length)) r

/-- al_split.py:264-290, one round with `partially_labeled=False`; an element `i` of `label` stands for the index tuple `(i,)`. `rows` is
`None` if only the shape was given. -/
def rowSplitRound (n L : Nat) (rows : Option (List (List Int))) (testRatio rate : ℚ) (allClass : Bool) (shs : List Sh) :
    Option (Except PyErr (Round Int)) :=
  match shs with
  | [] => none
  | sh :: r =>
    match cutTrain sh (pyRange 0 n) testRatio with
    | .error e => some (.error e)
    | .ok (train, test) =>
      let cut := cutLabel rate train.length
      if allClass then
        if cut < L then some (.error .valueError) else rowLoop n L rows testRatio rate train test cut r
      else some (.ok ⟨train, test, pySliceTo train cut, pySliceFrom train cut⟩)

/-- al_split.py:352-402 `split_multi_label`. -/
def splitMultiLabel (n L : Nat) (rows : Option (List (List Int))) (testRatio rate : ℚ) (allClass : Bool) (shs : List (List Sh)) :
    Option (Except PyErr (List (Round Int))) :=
  runRounds (rowSplitRound n L rows testRatio rate allClass) shs

/-! ## Saving and loading -/

/-- An array of indexes as handed to `split_save` or returned by `split_load`: two-dimensional, one-dimensional, a scalar, or (for
index tuples) three-dimensional. al_split.py:405-472. -/
inductive IArr where
  | mat (rows : List (List Int))
  | vec (v : List Int)
  | sc (x : Int)
  | cube (rows : List (List (List Int)))
  deriving DecidableEq, Repr

/-- What is in a directory: a text file written by `np.savetxt` has the rows, an `.npy` file has the array. al_split.py:462-470. -/
inductive IFile where
  | txt (rows : List (List Int))
  | npy (a : IArr)
  deriving DecidableEq, Repr

abbrev IDir := List (String × IFile)

/-- `np.loadtxt`: empty rows disappear and axes of length 1 are squeezed. al_split.py:441. -/
def loadtxt (rows : List (List Int)) : IArr :=
  match rows.filter (fun r => r ≠ []) with
  | [] => .vec []
  | [[x]] => .sc x
  | [r] => .vec r
  | rs => if rs.all (fun r => r.length = 1) then .vec rs.flatten else .mat rs

/-- The rows `np.savetxt` writes (three-dimensional arrays are refused with `ValueError`, not reached here). al_split.py:463-467. -/
def IArr.rows : IArr → List (List Int)
  | .mat rs => rs
  | .vec v => v.map (fun x => [x])
  | .sc x => [[x]]
  | .cube _ => []

/-- al_split.py:445-472 `split_save` into an existing directory. -/
def splitSave (d : IDir) (train test label unlabel : IArr) : IDir :=
  let d := dictSet "train_idx.txt" (.txt train.rows) d
  let d := dictSet "test_idx.txt" (.txt test.rows) d
  match label with
  | .mat _ => dictSet "unlabel_idx.txt" (.txt unlabel.rows) (dictSet "label_idx.txt" (.txt label.rows) d)
  | _ => dictSet "unlabel_idx.npy" (.npy unlabel) (dictSet "label_idx.npy" (.npy label) d)

/-- al_split.py:429-441, one file of `split_load`: `fname.split()[0]` splits at white space, so the name looked for is
`label_idx.txt.npy`. -/
def splitLoadOne (d : IDir) (fname : String) : Option IArr :=
  match dictGet fname d with
  | some (.txt rows) => some (loadtxt rows)
  | some (.npy a) => some a
  | none =>
    match dictGet (fname ++ ".npy") d with
    | some (.npy a) => some a
    | some (.txt rows) => some (.mat rows)
    | none => none

/-- al_split.py:405-442 `split_load`. -/
def splitLoad (d : IDir) : Option IArr × Option IArr × Option IArr × Option IArr :=
  (splitLoadOne d "train_idx.txt", splitLoadOne d "test_idx.txt", splitLoadOne d "label_idx.txt", splitLoadOne d "unlabel_idx.txt")

end Alipy

import Verif.Model.Py
/-!
# The files an experiment writes

`StateIO` (`alipy/experiment/state_io.py`), `ToolBox` (`alipy/toolbox.py`), `Oracle` (`alipy/oracle/oracle.py`), `aceThreading`
(`alipy/utils/multi_thread.py`) and `split_save` (`alipy/data_manipulate/al_split.py`): which file is written, when and where. A path is
the list of its components, absolute and normalised, as `os.path.abspath` returns it. What is written is whole at once (crashes while
writing: `Verif.Model.Threads`), and loading gives back the object dumped.
-/
namespace Alipy.Files
open Alipy

/-- A path after `os.path.abspath`. state_io.py line 122. -/
abbrev Path := List String

/-- What a file holds: a pickled toolbox, saver, oracle or `aceThreading` object, or a table of indexes. `V` are the contents.
state_io.py line 162, toolbox.py line 542, oracle.py line 278, multi_thread.py line 297, al_split.py lines 463-470. -/
inductive Obj (V : Type) where
  | box (v : V) | saver (v : V) | oracle (v : V) | threads (v : V) | table (v : V)
  deriving DecidableEq, Repr

/-- An entry of the file system: a directory or a file. state_io.py lines 123-126. -/
inductive Node (V : Type) where
  | dir | file (o : Obj V)
  deriving DecidableEq, Repr

variable {V : Type}

/-- The file system. state_io.py lines 123, 161. -/
abbrev Disk (V : Type) := Path → Option (Node V)

/-- `os.path.isdir`. state_io.py line 123. -/
def isdir (d : Disk V) (p : Path) : Bool :=
  match d p with
  | some .dir => true
  | _ => false

/-- There is a file at `p`. multi_thread.py lines 79-80. -/
def isfile (d : Disk V) (p : Path) : Bool :=
  match d p with
  | some (.file _) => true
  | _ => false

/-- The file system with the entry at `p` replaced. state_io.py lines 161-163. -/
def put (d : Disk V) (p : Path) (n : Node V) : Disk V := fun q => if q = p then some n else d q

/-- `open(p, 'wb')`, `pickle.dump`, `close`: a directory cannot be opened (`IsADirectoryError`), nor a file in a directory that is not
there. state_io.py lines 161-163, toolbox.py lines 538-543, oracle.py lines 275-279, multi_thread.py lines 293-298. -/
def write (d : Disk V) (p : Path) (o : Obj V) : Disk V × Option PyErr :=
  if isdir d p then (d, some .genericException)
  else if isdir d p.dropLast then (put d p (.file o), none)
  else (d, some .fileNotFoundError)

/-- `open(p, 'rb')` and `pickle.load`. state_io.py lines 142-145, toolbox.py lines 620-623, oracle.py lines 300-303. -/
def load (d : Disk V) (p : Path) : Except PyErr (Obj V) :=
  match d p with
  | some (.file o) => .ok o
  | some .dir => .error .genericException
  | none => .error .fileNotFoundError

/-- The attributes `_saving_dir` and `_saving_file_name` of a `StateIO` object. state_io.py lines 117-126. -/
structure Saver where
  dir : Option Path
  name : String
  deriving DecidableEq, Repr

/-- The part of the constructor of `StateIO` about the path. state_io.py lines 117-126. -/
def newSaver (d : Disk V) (round : Int) (path : Option Path) : Saver :=
  let name := "AL_round_" ++ round.repr ++ ".pkl"
  match path with
  | none => ⟨none, name⟩
  | some p => if isdir d p then ⟨some p, name⟩ else ⟨some p.dropLast, p.getLastD ""⟩

/-- `StateIO.save`, state_io.py lines 157-163. -/
def Saver.save (d : Disk V) (s : Saver) (v : V) : Disk V × Option PyErr :=
  match s.dir with
  | none => (d, none)
  | some p => write d (p ++ [s.name]) (.saver v)

/-- `ToolBox.save`, toolbox.py lines 533-543. -/
def saveBox (d : Disk V) (path : Option Path) (v : V) : Disk V × Option PyErr :=
  match path with
  | none => (d, none)
  | some p => if isdir d p then write d (p ++ ["al_settings.pkl"]) (.box v) else write d p (.box v)

/-- The attribute `_saving_dir` of a toolbox, toolbox.py lines 161-178. -/
def boxDir (d : Disk V) (path : Option Path) : Option Path :=
  match path with
  | none => none
  | some p => if isdir d p then some p else some p.dropLast

/-- The path `ToolBox.get_stateio` hands to `StateIO`, toolbox.py lines 350-354. `dir` is `_saving_dir`. -/
def getStateio (d : Disk V) (dir : Option Path) (round : Int) (path : Option Path) : Saver :=
  newSaver d round (match path with | none => dir | some p => some p)

/-- `Oracle.save_oracle`, oracle.py lines 257-279. -/
def saveOracle (d : Disk V) (path : Option Path) (v : V) : Disk V × Option PyErr :=
  match path with
  | none => (d, none)
  | some p => if isdir d p then write d (p ++ ["oracle.pkl"]) (.oracle v) else write d p (.oracle v)

/-- `os.makedirs`: every missing directory on the way is made; it fails if something on the way is a file. multi_thread.py line 80. -/
def makedirs (d : Disk V) (p : Path) : Disk V × Option PyErr :=
  if (List.range (p.length + 1)).all (fun n => !isfile d (p.take n)) then
    (fun q => if q <+: p then some .dir else d q, none)
  else (d, some .genericException)

/-- The part of the constructor of `aceThreading` about paths, multi_thread.py lines 74-81 and 101-103: the directory `AL_result` is made
unless there is something of that name, and the savers of the rounds get it as their path. -/
def newThreads (d : Disk V) (p : Path) (rounds : Nat) : Disk V × Except PyErr (List Saver) :=
  let q := p ++ ["AL_result"]
  let (d', e) := if (d q).isSome then (d, none) else makedirs d q
  match e with
  | some e => (d', .error e)
  | none => (d', .ok ((List.range rounds).map (fun (i : Nat) => newSaver d' (i : Int) (some q))))

/-- `aceThreading.save`, multi_thread.py lines 287-298. -/
def saveThreads (d : Disk V) (p : Path) (v : V) : Disk V × Option PyErr :=
  if isdir d p then write d (p ++ ["multi_thread_state.pkl"]) (.threads v) else write d p (.threads v)

/-- One write after another; an exception ends the sequence. al_split.py lines 463-470. -/
def writeAll (d : Disk V) : List (Path × Obj V) → Disk V × Option PyErr
  | [] => (d, none)
  | (p, o) :: l =>
    match write d p o with
    | (d', none) => writeAll d' l
    | (d', some e) => (d', some e)

/-- `split_save`, al_split.py lines 445-472. `ragged`: the label sets do not form a table of two
dimensions, so they are saved as `.npy`. -/
def saveSplit (d : Disk V) (path : Option Path) (ragged : Bool) (train test label unlabel : V) : Disk V × Option PyErr :=
  match path with
  | none => (d, none)
  | some p =>
    if isdir d p then
      writeAll d ([(p ++ ["train_idx.txt"], .table train), (p ++ ["test_idx.txt"], .table test)] ++
        (if ragged then [(p ++ ["label_idx.npy"], .table label), (p ++ ["unlabel_idx.npy"], .table unlabel)]
         else [(p ++ ["label_idx.txt"], .table label), (p ++ ["unlabel_idx.txt"], .table unlabel)]))
    else (d, some .genericException)

/-- One of the four entries `split_load` returns: the text file, or else the file with `.npy` behind the whole name (`fname.split()`
splits at blanks), or else `None`. al_split.py lines 434-441. -/
def loadTable (d : Disk V) (p : Path) (name : String) : Except PyErr (Option (Obj V)) :=
  if (d (p ++ [name])).isSome then (load d (p ++ [name])).map some
  else if (d (p ++ [name ++ ".npy"])).isSome then (load d (p ++ [name ++ ".npy"])).map some
  else .ok none

/-- What is saved in the course of experiments with the directory `p`: the toolbox, an oracle, the split, the saver of a round, the
`aceThreading` object and the saver of one of its rounds. al_experiment.py lines 340-361 and 419, multi_thread.py lines 188-228. -/
inductive Act (V : Type) where
  | box (v : V)
  | oracle (v : V)
  | split (ragged : Bool) (train test label unlabel : V)
  | round (k : Int) (v : V)
  | threads (v : V)
  | thread (k : Int) (v : V)
  deriving DecidableEq, Repr

/-- One of these with the path `p`. al_experiment.py lines 355-357 and 419. -/
def act (p : Path) (d : Disk V) : Act V → Disk V × Option PyErr
  | .box v => saveBox d (some p) v
  | .oracle v => saveOracle d (some p) v
  | .split r a b c e => saveSplit d (some p) r a b c e
  | .round k v => (newSaver d k (some p)).save d v
  | .threads v => saveThreads d p v
  | .thread k v => (newSaver d k (some (p ++ ["AL_result"]))).save d v

/-- A sequence of them, with the exceptions raised. al_experiment.py lines 354-361. -/
def acts (p : Path) (d : Disk V) : List (Act V) → Disk V × List PyErr
  | [] => (d, [])
  | a :: l =>
    let r := act p d a
    let s := acts p r.1 l
    (s.1, r.2.toList ++ s.2)

end Alipy.Files

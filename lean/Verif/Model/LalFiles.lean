import Verif.Model.Lal
/-!
# The data and the training of LAL: `alipy/query_strategy/query_labels.py`, lines 1633-1742

What the server answers is a parameter of every call, `np.load` and the fitting of the regressor are functions of the content of the file;
as the forest is random, a selector stands for the data it was fitted to. A path is a directory and a name
(the code joins them). Printing is left out, and with it the length the server announces (not 0); `requests` can be imported.
-/
namespace Alipy.Lal
open Alipy Select

variable {γ ρ σ : Type}

/-- A path: directory and name. query_labels.py:1640-1641. -/
abbrev Path := String × String

/-- The content of the files. query_labels.py:1656, 1675 and 1723. -/
abbrev Files (γ : Type) := Path → Option (List γ)

/-- What happens to `requests.get` and `iter_content`: no connection, no announced length, all parts sent, or a connection that breaks after some parts.
query_labels.py:1660-1671 and 1679-1690. -/
inductive Reply (γ : Type) where
  | refused
  | noLength
  | sent (parts : List (List γ))
  | broken (parts : List (List γ))
  deriving Repr

/-- The file of a mode. query_labels.py:1640-1641 and 1717. -/
def fileOf (mode dir : String) : Path :=
  if mode = "LAL_iterative" then (dir, "LAL-iterativetree-simulatedunbalanced-big.npz") else (dir, "LAL-randomtree-simulatedunbalanced-big.npz")

/-- `open(path, "wb")` and the writing of the parts. query_labels.py:1664-1671. -/
def write (d : Files γ) (p : Path) (parts : List (List γ)) : Files γ := fun q => if q = p then some parts.flatten else d q

/-- A `QueryInstanceLAL` object. query_labels.py:1640-1645. -/
structure Obj (σ : Type) where
  mode : String
  dir : String
  selector : Option σ
  deriving Repr

/-- `download_data`, query_labels.py:1650-1692. -/
def download (d : Files γ) (o : Obj σ) (r : Reply γ) : Files γ × Option PyErr :=
  let p := fileOf o.mode o.dir
  if (d p).isSome then (d, none)
  else
    match r with
    | .refused => (d, some .genericException)
    | .noLength => (d, some .keyError)
    | .sent parts => (write d p parts, none)
    | .broken parts => (write d p parts, some .genericException)

/-- `train_selector_from_file`, query_labels.py:1694-1734; `isDir` says which paths are directories. -/
def train (isDir : Path → Bool) (load : List γ → Except PyErr ρ) (fit : ρ → σ) (d : Files γ) (o : Obj σ) (file : Option Path) : Obj σ × Option PyErr :=
  match file with
  | some p => if isDir p then (o, some .valueError) else go p
  | none => go (fileOf o.mode o.dir)
where
  go (p : Path) : Obj σ × Option PyErr :=
    match d p with
    | none => (o, some .fileNotFoundError)
    | some content =>
      match load content with
      | .error e => (o, some e)
      | .ok x => ({ o with selector := some (fit x) }, none)

/-- `QueryInstanceLAL(X, y, mode, data_path, cls_est, train_slt)`, query_labels.py:1633-1648. -/
def make (isDir : Path → Bool) (load : List γ → Except PyErr ρ) (fit : ρ → σ) (d : Files γ) (y : List Int) (dirOk : Bool) (mode dir : String) (trainSlt : Bool) (r : Reply γ) :
    Files γ × Except PyErr (Obj σ) :=
  match init y dirOk mode with
  | .error e => (d, .error e)
  | .ok () =>
    let o : Obj σ := ⟨mode, dir, none⟩
    if !trainSlt then (d, .ok o)
    else
      match download d o r with
      | (d, some e) => (d, .error e)
      | (d, none) =>
        match train isDir load fit d o none with
        | (_, some e) => (d, .error e)
        | (o, none) => (d, .ok o)

/-- The calls a program can make, each with the answer of the server. query_labels.py:1633, 1650 and 1694. -/
inductive Call (γ : Type) where
  | make (y : List Int) (dirOk : Bool) (mode dir : String) (trainSlt : Bool) (r : Reply γ)
  | download (r : Reply γ)
  | train (file : Option Path)

/-- One call; what raises leaves the object as it was, a constructor that raises leaves no object. query_labels.py:1633-1734. -/
def call (isDir : Path → Bool) (load : List γ → Except PyErr ρ) (fit : ρ → σ) (s : Files γ × Option (Obj σ)) : Call γ → Files γ × Option (Obj σ)
  | .make y dirOk mode dir t r => ((make isDir load fit s.1 y dirOk mode dir t r).1, (make isDir load fit s.1 y dirOk mode dir t r).2.toOption)
  | .download r =>
    match s.2 with
    | none => s
    | some o => ((download s.1 o r).1, some o)
  | .train f =>
    match s.2 with
    | none => s
    | some o => (s.1, some (train isDir load fit s.1 o f).1)

/-- A program: the calls one after the other. query_labels.py:1633-1734. -/
def calls (isDir : Path → Bool) (load : List γ → Except PyErr ρ) (fit : ρ → σ) (s : Files γ × Option (Obj σ)) (cs : List (Call γ)) : Files γ × Option (Obj σ) :=
  cs.foldl (call isDir load fit) s

end Alipy.Lal

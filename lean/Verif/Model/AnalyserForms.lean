import Verif.Model.MultiLabelTools
import Mathlib.Algebra.Field.Defs
/-!
# In which forms results can be handed to the analyser: `alipy/experiment/experiment_analyser.py` lines 27-225, 322-380, 556-601 and `alipy/utils/interface.py` lines 238-251

`Verif.Model.Analyser` and `Verif.Model.CostCurve` have the summaries and the curves; here are the containers, the kinds of results and what is kept. The summary is a parameter that can raise
(`_ContentSummary`, lines 228-311). Arrays of numpy behave as lists here.
-/
namespace Alipy.ResultForms
open Alipy

variable {K : Type}

/-- A recorded state as far as it is read here: the values of `cost` and `performance`, if there are such keys. experiment_analyser.py lines 186-191 and 198-202. -/
structure St (K : Type) where
  cost : Option (List K)
  perf : Option K
  deriving DecidableEq, Repr

/-- A `StateIO` object: the initial point and the states. experiment_analyser.py lines 183-186. -/
structure Sio (K : Type) where
  ip : Option K
  states : List (St K)
  deriving DecidableEq, Repr

/-- An element of the list of a fold: a performance, or a tuple (of numbers or lists of numbers). experiment_analyser.py lines 80-83. -/
inductive Item (K : Type) where
  | num (x : K)
  | tup (vs : List (List K))
  deriving DecidableEq, Repr

/-- The results of a fold: a `StateIO` object, a path, a list, something else. experiment_analyser.py lines 78-84 and 114-120. -/
inductive FoldArg (K : Type) where
  | obj (s : Sio K)
  | path (p : String)
  | list (l : List (Item K))
  | other
  deriving DecidableEq, Repr

/-- `_type_of_data`, experiment_analyser.py lines 64-90: the first element of the first fold decides. -/
def typeOfData : List (FoldArg K) → Except PyErr Nat
  | [] => .error .indexError
  | .obj _ :: _ => .ok 0
  | .list [] :: _ => .error .indexError
  | .list (.tup vs :: _) :: _ => .ok (if vs.length > 1 then 2 else 1)
  | .list (.num _ :: _) :: _ => .ok 1
  | .path _ :: _ => .error .valueError
  | .other :: _ => .error .valueError

/-- `StateIOContainer(name, folds)`, experiment_analyser.py lines 101-160: objects are taken as they are, paths are read (`disk`). -/
def container (disk : String → Except PyErr (Sio K)) : List (FoldArg K) → Except PyErr (List (Sio K))
  | [] => .ok []
  | f :: r =>
    match (match f with
      | .obj s => .ok s
      | .path p => disk p
      | _ => .error .typeError : Except PyErr (Sio K)) with
    | .error e => .error e
    | .ok s => (container disk r).map (fun l => s :: l)

/-- The states of a fold with one key, experiment_analyser.py lines 186-191: ValueError if one does not have it. -/
def line {β : Type} (key : St K → Option β) : List (St K) → Except PyErr (List β)
  | [] => .ok []
  | s :: r =>
    match key s with
    | none => .error .valueError
    | some x => (line key r).map (fun l => x :: l)

/-- `extract_matrix()`, experiment_analyser.py lines 181-192. -/
def extractOne : List (Sio K) → Except PyErr (List (List K))
  | [] => .ok []
  | s :: r =>
    match line St.perf s.states with
    | .error e => .error e
    | .ok l => (extractOne r).map (fun m => (s.ip.toList ++ l) :: m)

/-- The values of both keys, experiment_analyser.py lines 197-203. -/
def both (s : St K) : Option (List K × K) :=
  match s.cost, s.perf with
  | some c, some p => some (c, p)
  | _, _ => none

/-- `extract_matrix(['cost', 'performance'])`, experiment_analyser.py lines 194-205. The initial point is left out. -/
def extractTwo : List (Sio K) → Except PyErr (List (List (List K × K)))
  | [] => .ok []
  | s :: r =>
    match line both s.states with
    | .error e => .error e
    | .ok l => (extractTwo r).map (fun m => l :: m)

/-- What `_data_extracted` has for a method. experiment_analyser.py lines 346, 368, 375, 576, 584 and 591. -/
inductive Kept (K : Type) where
  | perfs (m : List (List K))
  | pairs (m : List (List (List K × K)))
  | given (fs : List (FoldArg K))
  deriving DecidableEq, Repr

/-- `ExperimentAnalyser(x_axis)`, experiment_analyser.py lines 56-61. -/
inductive Axis where
  | queries | cost
  deriving DecidableEq, Repr

/-- experiment_analyser.py lines 56-61. -/
def axisOf (x : String) : Except PyErr Axis :=
  if x = "num_of_queries" then .ok .queries else if x = "cost" then .ok .cost else .error .valueError

/-- The attributes of an analyser; `allState` is `_is_all_stateio`, which `__init__` does not set. interface.py lines 236-244, experiment_analyser.py lines 319-320 and 551-552. -/
structure An (K σ : Type) where
  extracted : List (String × Kept K)
  summary : List (String × σ)
  allState : Option Bool

/-- What is given to `add_method`: a list of folds, a `StateIOContainer`, something else. experiment_analyser.py lines 337-342 and 571-576. -/
inductive Arg (K : Type) where
  | folds (fs : List (FoldArg K))
  | container (c : List (Sio K))
  | other

variable {σ : Type}

/-- `extract_matrix` as the analysers call it. experiment_analyser.py lines 346, 368, 580 and 588. -/
def keep (x : Axis) (c : List (Sio K)) : Except PyErr (Kept K) :=
  match x with
  | .queries => (extractOne c).map .perfs
  | .cost => (extractTwo c).map .pairs

/-- Storing data and summary, in this order: if the summary raises, the data are there. experiment_analyser.py lines 346-347, 368-373, 375-377, 580-581, 588-594 and 596-598. -/
def store (a : An K σ) (name : String) (k : Kept K) (s : Except PyErr σ) : An K σ × Option PyErr :=
  let a := { a with extracted := dictSet name k a.extracted }
  match s with
  | .error e => (a, some e)
  | .ok s => ({ a with summary := dictSet name s a.summary }, none)

/-- `add_method`, experiment_analyser.py lines 322-380 and 554-606. `summ` is the summary of the folds given. -/
def addMethod (disk : String → Except PyErr (Sio K)) (summ : List (FoldArg K) → Except PyErr σ) (x : Axis) (a : An K σ) (name : String) : Arg K → An K σ × Option PyErr
  | .other => (a, some .typeError)
  | .container c =>
    let a := { a with allState := some true }
    match keep x c with
    | .error e => (a, some e)
    | .ok k => store a name k (summ (c.map .obj))
  | .folds fs =>
    let a := { a with allState := some true }
    match typeOfData fs with
    | .error e => (a, some e)
    | .ok 0 =>
      match container disk fs with
      | .error e => (a, some e)
      | .ok c =>
        match keep x c with
        | .error e => (a, some e)
        | .ok k => store a name k (summ fs)
    | .ok n =>
      if n = (match x with | .queries => 1 | .cost => 2) then
        store { a with allState := some false } name (.given fs) (summ fs)
      else (a, some .valueError)

/-- `get_extracted_data`, interface.py lines 249-250. -/
def getExtracted (a : An K σ) (name : String) : Except PyErr (Kept K) :=
  match dictGet name a.extracted with
  | none => .error .keyError
  | some k => .ok k

/-- `get_methods_names`, interface.py lines 246-247: the attribute `_BaseAnalyser__data_raw` is never set. -/
def methodsNames (_ : An K σ) : Except PyErr (List String) := .error .attributeError

/-- The rows of `__repr__` of the analyser for the number of queries (experiment_analyser.py lines 529-541): the summaries, and whether a column of batch sizes is added. -/
def repr (a : An K σ) : Except PyErr (List (String × σ) × Bool) :=
  match (a.extracted.map Prod.fst).mapM (fun n => (dictGet n a.summary).map (fun s => (n, s))) with
  | none => .error .keyError
  | some rows =>
    match a.allState with
    | none => .error .attributeError
    | some b => .ok (rows, b)

end Alipy.ResultForms

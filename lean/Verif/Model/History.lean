import Verif.Model.Oracle
import Verif.Model.Repository
/-!
# The tables of past queries: `Oracles.full_history`, `Oracles.__repr__` and `full_history` of the repositories

A table is modelled by the values put into it, not by the text that `prettytable` makes of them (`str` of indexes, responses and costs).
Every column that is added has as many cells as there are oracles (one, in a repository), so `add_column` does not raise.
-/
namespace Alipy

/-- A cell of `Oracles.full_history`: a backslash, or the query, the response and the cost. oracle.py:668-671. -/
inductive HistCell (β ι : Type) where
  | blank
  | asked (query : ι) (response : β) (cost : Costs)
  deriving DecidableEq, Repr

/-- The table of `Oracles.full_history`: the column of names, one column for each query, and the column `in all`. oracle.py:655-674. -/
structure HistTable (β ι : Type) where
  names : List String
  columns : List (List (HistCell β ι))
  inAll : List Nat
  deriving Repr

namespace Oracles
variable {β ι : Type}

/-- oracle.py:662-665: the loop over the names of one query; `oracle_name_list.index(name)` raises ValueError for an unknown name. -/
def countNames (names : List String) (counts : List Nat) : List String → Except PyErr (List Nat)
  | [] => .ok counts
  | n :: r =>
    if n ∈ names then countNames names (counts.modify (names.idxOf n) (· + 1)) r
    else .error .valueError

/-- oracle.py:663-666: `name_dict`, the position of each name among the names of the query (the last one). -/
def nameDict (ns : List String) : List (String × Nat) := dictOfList ns.zipIdx

/-- oracle.py:668-671: one cell. -/
def histCell (h : Record β ι) (n : String) : Except PyErr (HistCell β ι) :=
  match dictGet n (nameDict h.names) with
  | none => .ok .blank
  | some i =>
    match h.results[i]? with
    | none => .error .indexError
    | some a => .ok (.asked h.query a.labels a.costs)

/-- oracle.py:668-671: one column. -/
def histColumn (h : Record β ι) : List String → Except PyErr (List (HistCell β ι))
  | [] => .ok []
  | n :: r =>
    match histCell h n with
    | .error e => .error e
    | .ok c =>
      match histColumn h r with
      | .error e => .error e
      | .ok cs => .ok (c :: cs)

/-- oracle.py:659-671: the loop over the queries. -/
def histLoop (names : List String) (counts : List Nat) : List (Record β ι) → Except PyErr (List (List (HistCell β ι)) × List Nat)
  | [] => .ok ([], counts)
  | h :: r =>
    match countNames names counts h.names with
    | .error e => .error e
    | .ok counts =>
      match histColumn h names with
      | .error e => .error e
      | .ok col =>
        match histLoop names counts r with
        | .error e => .error e
        | .ok (cols, counts) => .ok (col :: cols, counts)

/-- oracle.py:649-674 `full_history`. -/
def fullHistory (o : Oracles β ι) : Except PyErr (HistTable β ι) :=
  let names := o.dict.map Prod.fst
  match histLoop names (List.replicate names.length 0) o.history with
  | .error e => .error e
  | .ok (cols, counts) => .ok ⟨names, cols, counts⟩

/-- oracle.py:639-641: the loop of `__repr__` over the names of one query with their positions. -/
def reprNames (results : List (Answer β)) (d : List (String × (Nat × ℚ))) : List (String × Nat) → Except PyErr (List (String × (Nat × ℚ)))
  | [] => .ok d
  | (n, i) :: r =>
    match dictGet n d with
    | none => .error .keyError
    | some (k, c) =>
      match results[i]? with
      | none => .error .indexError
      | some a => reprNames results (dictSet n (k + 1, c + a.costs.nums.sum) d) r

/-- oracle.py:636-641: the loop of `__repr__` over the queries. -/
def reprLoop (d : List (String × (Nat × ℚ))) : List (Record β ι) → Except PyErr (List (String × (Nat × ℚ)))
  | [] => .ok d
  | h :: r =>
    match reprNames h.results d h.names.zipIdx with
    | .error e => .error e
    | .ok d => reprLoop d r

/-- oracle.py:625-647 `__repr__`: name, number of answers and cost of each oracle. -/
def reprTable (o : Oracles β ι) : Except PyErr (List (String × (Nat × ℚ))) :=
  reprLoop (o.dict.map (fun p => (p.1, (0, 0)))) o.history

end Oracles

/-- The table of `full_history` of a repository: one column for each query and the column `in all` with the number of queries and the cost. knowledge_repository.py:308-317 and 589-598. -/
structure RepoTable (κ β : Type) where
  columns : List (RepoQuery κ β)
  queries : Nat
  cost : ℚ

/-- knowledge_repository.py:308-317 `full_history` of `ElementRepository`. -/
def ERepo.fullHistory {κ β χ : Type} (o : ERepo κ β χ) : RepoTable κ β := ⟨o.history, o.history.length, o.cost⟩

/-- knowledge_repository.py:589-598 `full_history` of `MatrixRepository`. -/
def MRepo.fullHistory {κ γ : Type} (o : MRepo κ γ) : RepoTable κ (Lab γ) := ⟨o.history, o.history.length, o.cost⟩

end Alipy

import Verif.Model.Pool
/-!
# The features of LAL: `alipy/query_strategy/query_labels.py`, lines 1633-1648 and 1736-1786

The random forest fitted to the labelled examples is given by what is read off it, the trained selector by its prediction for one row of features; square root
and `np.argsort` are parameters. Downloading of the data and training of the selector: Model/LalFiles.lean.
-/
namespace Alipy.Lal
open Alipy Select

variable {α K : Type} [Field K] [LinearOrder K]

/-- What `select` reads off the fitted forest: for every tree the first column of its probabilities for the unlabelled examples (query_labels.py:1758) and its depth (1771),
the out-of-bag score and the importances of the features. -/
structure Forest (K : Type) where
  trees : List (List K)
  depths : List Nat
  oob : K
  importances : List K

/-- `np.mean`. query_labels.py:1760, 1769 and 1771. -/
def mean (l : List K) : K := l.sum / l.length

/-- `np.std`. query_labels.py:1761 and 1767. -/
def std (sqrt : K → K) (l : List K) : K := sqrt (mean (l.map (fun x => (x - mean l) ^ 2)))

/-- What the trees say about the example at position `i`: a column of `temp`. query_labels.py:1758. -/
def column (f : Forest K) (i : Nat) : List K := f.trees.map (fun t => t.getD i 0)

/-- query_labels.py:1761 -/
def f2 (sqrt : K → K) (f : Forest K) (i : Nat) : K := std sqrt (column f i)

/-- query_labels.py:1763 -/
def f3 (known : List Int) : K := ((known.filter (fun y => decide (0 < y))).length : K) / known.length

/-- query_labels.py:1767 -/
def f5 (sqrt : K → K) (f : Forest K) (dim : Nat) : K := std sqrt (f.importances.map (fun x => x / dim))

/-- query_labels.py:1769, for `n` unlabelled examples. -/
def f6 (sqrt : K → K) (f : Forest K) (n : Nat) : K := mean ((List.range n).map (f2 sqrt f))

/-- query_labels.py:1758-1777: the row of the unlabelled example at position `i` of `n`. -/
def features (sqrt : K → K) (f : Forest K) (known : List Int) (dim n i : Nat) : List K :=
  [mean (column f i), f2 sqrt f i, f3 known, f.oob, f5 sqrt f dim, f6 sqrt f n, mean (f.depths.map (fun d : Nat => (d : K))), (known.length : K)]

/-- `QueryInstanceLAL.select`, query_labels.py:1736-1786; `selector` is `none` if it is not trained. The forest cannot be fitted without labelled examples. -/
def select (sqrt : K → K) (argsort : List K → List Nat) (selector : Option (List K → K)) (f : Forest K) (known : List Int) (dim : Nat) (u : Coll α)
    (batch : Int) : Except PyErr (List α) :=
  match selector with
  | none => .error .valueError
  | some s =>
    if known = [] then frame u batch (.error .valueError)
    else lal argsort u (some ((List.range u.items.length).map (fun i => s (features sqrt f known dim u.items.length i)))) batch

/-- `QueryInstanceLAL.__init__`, query_labels.py:1633-1648, without training: the number of classes, whether the path is a directory, and the mode. -/
def init (y : List Int) (isDir : Bool) (mode : String) : Except PyErr Unit :=
  if y.eraseDups.length ≠ 2 then .error .valueError
  else if !isDir then .error .valueError
  else if mode = "LAL_iterative" ∨ mode = "LAL_independent" then .ok ()
  else .error .assertionError

end Alipy.Lal

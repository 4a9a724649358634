import Verif.Model.MultiLabel
/-!
# Completing queried pairs along the label hierarchy: `hierarchical_multilabel_mark`, alipy/query_strategy/cost_sensitive.py:151-230

The arguments are collections of plain pairs (lists and arrays are converted to collections first, lines 178-206) with labels from `0` to
`L - 1`, `L` being the label size of the queried collection and the size of the tree (line 209). The tree and the label matrix are functions,
as they are only read at such labels.
-/
namespace Alipy.Hierarchy
open Alipy

/-- The labels added for a queried pair whose label `j` has the value `v`, lines 216-225: for 1 the `d` with `label_tree[j][d] == 1`, for -1 the
`d` with `label_tree[d][j] == 1`. -/
def targets (tree : Int → Int → Bool) (L : Nat) (v j : Int) : List Int :=
  if v = 1 then ((List.range L).map (fun d : Nat => (d : Int))).filter (fun d => tree j d)
  else if v = -1 then ((List.range L).map (fun d : Nat => (d : Int))).filter (fun d => tree d j)
  else []

/-- Lines 218-220 and 223-225: `update` for those pairs which are not labelled. -/
def addTargets (labelled : MLIC) (x : Int) : MLIC → List Int → MLIC.Res
  | acc, [] => (acc, none)
  | acc, d :: ds =>
    if (x, Second.scal d) ∈ labelled.inner then addTargets labelled x acc ds
    else
      match acc.update (.tuple (.pair x (.scal d))) with
      | (acc', none) => addTargets labelled x acc' ds
      | (acc', some e) => (acc', some e)

/-- The first loop, lines 213-225. A compound element cannot be used as an index of the tree: not modelled, taken as TypeError. -/
def collect (tree : Int → Int → Bool) (L : Nat) (y : Int → Int → Int) (labelled : MLIC) : MLIC → List (Int × Second) → MLIC.Res
  | acc, [] => (acc, none)
  | acc, (_, .iter _ _) :: _ => (acc, some .typeError)
  | acc, (x, .scal j) :: ps =>
    match addTargets labelled x acc (targets tree L (y x j) j) with
    | (acc', none) => collect tree L y labelled acc' ps
    | (acc', some e) => (acc', some e)

/-- The second loop, lines 227-229. -/
def merge : MLIC → List (Int × Second) → MLIC.Res
  | q, [] => (q, none)
  | q, p :: ps =>
    if p ∈ q.inner then merge q ps
    else
      match q.update (.tuple (.pair p.1 p.2)) with
      | (q', none) => merge q' ps
      | (q', some e) => (q', some e)

/-- `hierarchical_multilabel_mark(multilabel_index, label_index, label_tree, y_true)`, lines 151-230: the queried collection after the call (the
object passed is changed and returned). `lt` is the shape of the tree. -/
def mark (q labelled : MLIC) (lt : Nat × Nat) (tree : Int → Int → Bool) (y : Int → Int → Int) : MLIC.Res :=
  match q.lsz with
  | none => (q, some .assertionError)
  | some L =>
    if (lt.1 : Int) = L ∧ (lt.2 : Int) = L then
      match collect tree L.toNat y labelled (MLIC.empty (some L)) q.inner with
      | (_, some e) => (q, some e)
      | (acc, none) => merge q acc.inner
    else (q, some .assertionError)

end Alipy.Hierarchy

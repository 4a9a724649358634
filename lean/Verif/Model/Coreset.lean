import Verif.Model.Pool
/-!
# `QueryInstanceCoresetGreedy`: `alipy/query_strategy/query_labels.py:1789-1888`

The feature rows enter only through the distances `D x y` of the examples with indexes `x` and `y`. Positions refer to `train_idx`.
-/
namespace Alipy.Select
open Alipy

variable {α K : Type} [DecidableEq α] [Field K] [LinearOrder K]

/-- The attributes that change, query_labels.py:1815, 1817. -/
structure Core (K : Type) where
  minD : Option (List K)
  already : List Nat

/-- `__init__`, query_labels.py:1809-1818 -/
def Core.fresh : Core K := { minD := none, already := [] }

/-- The smallest of the distances of `x` to the examples at the positions `cs` (query_labels.py:1837, 1840, 1843). -/
def minTo (D : α → α → K) (train : List α) (cs : List Nat) (x : α) : K := lowest ((cs.filterMap (fun c => train[c]?)).map (D x))

/-- `update_distances(cluster_centers, only_new=True, reset_dist=False)`, query_labels.py:1820-1844 -/
def Core.update (D : α → α → K) (train : List α) (o : Core K) (cs : List Nat) : Core K :=
  if (cs.filter (fun c => decide (c ∉ o.already))).isEmpty then o
  else
    match o.minD with
    | none => { o with minD := some (train.map (minTo D train (cs.filter (fun c => decide (c ∉ o.already))))) }
    | some m => { o with minD := some (List.zipWith min m (train.map (minTo D train (cs.filter (fun c => decide (c ∉ o.already)))))) }

/-- `[np.where(self.train_idx == id)[0].item() for id in label_index]`, query_labels.py:1871: `item` raises unless there is exactly one
position. `cmp x` says whether `train_idx == x` is a comparison element by element. It is for every `x` if `train_idx` is an array. If it is a Python list,
it is for numpy numbers (see `listCompares` in Model/MultiLabel.lean); otherwise the comparison gives `False` and there is no position. -/
def itemPositions (cmp : α → Bool) (train : List α) : List α → Except PyErr (List Nat)
  | [] => .ok []
  | x :: xs => if cmp x && decide (train.count x = 1) then (itemPositions cmp train xs).map (fun ps => train.idxOf x :: ps) else .error .valueError

/-- The loop, query_labels.py:1878-1887. -/
def Core.loop (D : α → α → K) (train u : List α) : Nat → Core K → List α → Core K × Except PyErr (List α)
  | 0, o, b => (o, .ok b)
  | n + 1, o, b =>
    match o.minD with
    | none => (o, .error .typeError)
    | some m =>
      if argmaxPos m ∈ o.already then (o, .error .assertionError)
      else
        match train[argmaxPos m]? with
        | none => (o, .error .indexError)
        | some x =>
          if x ∈ u then
            Core.loop D train u n { o.update D train [argmaxPos m] with
              minD := (o.update D train [argmaxPos m]).minD.map (fun m' => setAll m' [argmaxPos m] (-100)) } (b ++ [x])
          else (o, .error .assertionError)

/-- `select`, query_labels.py:1846-1888. With no labelled example in the first call `min_distances` is `None`. -/
def Core.select (D : α → α → K) (cmp : α → Bool) (train : List α) (o : Core K) (l u : List α) (batch : Nat) : Core K × Except PyErr (List α) :=
  match itemPositions cmp train l with
  | .error e => (o, .error e)
  | .ok ps =>
    match (o.update D train ps).minD with
    | none => (o.update D train ps, .error .typeError)
    | some m => Core.loop D train u batch { minD := some (setAll m ps (-100)), already := ps } []

end Alipy.Select

import Verif.Model.MultiLabel
import Verif.Model.IndexCollection
import Verif.Model.Misc
import Mathlib.Algebra.Order.Field.Basic
/-!
# MMC and Adaptive: `alipy/query_strategy/multi_label.py`, lines 793-970 and 973-1157

Both strategies select whole instances one after the other. Modelled: the conversion of the arguments, the loop over the batch with its
effect on the collections passed, the score of MMC and the choice of both strategies. Not modelled: training of the base classifiers
(their outputs are parameters), the real power in Adaptive's score and its error estimate (tables of values, parameters).
-/
namespace Alipy.MLBatch
open IC

/-- `label_index` or `unlabel_index`: a list or array, an `IndexCollection`, a `MultiLabelIndexCollection`. multi_label.py:876-887. -/
inductive PoolArg where
  | seq (vs : List Val)
  | coll (c : IC)
  | multi (m : MLIC)

/-- multi_label.py:876-887, 947-958, 1042-1053 and 1134-1145: a list becomes a new collection, a multi-label collection the collection of its unbroken
instances, a collection is used as it is. Other types raise `TypeError` and are not arguments here. -/
def PoolArg.toIC : PoolArg → Except PyErr IC
  | .seq vs => .ok (mk' vs)
  | .coll c => .ok c
  | .multi m =>
    match m.unbroken with
    | .error e => .error e
    | .ok us => .ok (mk' (us.map (fun n => ⟨false, .int n⟩)))

/-- What `sequential_select` returns: an index, or a list if at most one is left. multi_label.py:890, 922, 1056 and 1109. -/
inductive Chosen where
  | one (v : Val)
  | many (vs : List Val)

/-- `sequential_select`, multi_label.py:857-922 and 1022-1109, on collections. `ask` is the position selected from the models trained on
the two collections (`ask_id`); training may raise. -/
def sequentialSelect (ask : IC → IC → Except PyErr Nat) (l u : IC) : Except PyErr Chosen :=
  if u.inner.length ≤ 1 then .ok (.many u.inner)
  else
    match ask l u with
    | .error e => .error e
    | .ok k =>
      match u.inner[k]? with
      | none => .error .indexError
      | some v => .ok (.one v)

/-- An element of the list returned by `select`: an index as it is, or wrapped as `(selected,)`. multi_label.py:961 and 968, 1148 and 1155. -/
inductive Out where
  | plain (v : Val)
  | tuple (c : Chosen)

/-- `update` and `difference_update` with a selection. multi_label.py:966-967 and 1153-1154. -/
def Chosen.arg : Chosen → IC.Arg
  | .one v => .one v
  | .many vs => .many vs

/-- The loop, multi_label.py:963-968 and 1150-1155: the two collections afterwards, and the list or the exception. -/
def loop (ask : IC → IC → Except PyErr Nat) : Nat → IC → IC → List Out → IC × IC × Except PyErr (List Out)
  | 0, l, u, acc => (l, u, .ok acc)
  | n + 1, l, u, acc =>
    match sequentialSelect ask l u with
    | .error e => (l, u, .error e)
    | .ok ch =>
      match l.update ch.arg with
      | (l', some e) => (l', u, .error e)
      | (l', none) => loop ask n l' (u.differenceUpdate ch.arg) (acc ++ [.tuple ch])

/-- The argument as the caller sees it after the call: only a collection that was passed itself can have changed. multi_label.py:966-967 and 1153-1154. -/
def PoolArg.after : PoolArg → IC → PoolArg
  | .coll _, c => .coll c
  | a, _ => a

/-- `select`, multi_label.py:924-970 and 1111-1157: the two arguments afterwards and the result. -/
def select (ask : IC → IC → Except PyErr Nat) (la ua : PoolArg) (batch : Nat) : PoolArg × PoolArg × Except PyErr (List Out) :=
  match la.toIC with
  | .error e => (la, ua, .error e)
  | .ok l =>
    match ua.toIC with
    | .error e => (la, ua, .error e)
    | .ok u =>
      if u.inner.length ≤ batch then (la, ua, .ok (u.inner.map .plain))
      else
        match loop ask batch l u [] with
        | (l', u', r) => (la.after l', ua.after u', r)

/-! ## The score of MMC -/
section
variable {K : Type} [Field K] [LinearOrder K]

/-- multi_label.py:915-917, one row: `-1` everywhere and `1` at `idx_poolf[i, :p]`, where `idx` lists the labels in descending order of
probability. -/
def signs (n : Nat) (idx : List Nat) (p : Int) : List K := (List.range n).map (fun j => if j ∈ pySliceTo idx p then 1 else -1)

/-- multi_label.py:900 and 919, one row: `((1 - yhat * (2 * proba - 1)) / 2).sum()`. -/
def mmcScore (proba : List K) (idx : List Nat) (p : Int) : K :=
  (List.zipWith (fun yh q => (1 - yh * (q * 2 - 1)) / 2) (signs proba.length idx p) proba).sum

/-- `np.where(score == np.max(score))[0]`. multi_label.py:920 and 1081. -/
def argmaxes (score : List K) : List Nat := (List.range score.length).filter (fun i => score.all (fun w => decide (w ≤ score.getD i 0)))

/-- multi_label.py:920, `random_state_.choice` of the positions of the largest score; an empty pool makes `np.max` raise. -/
def mmcAsk (choose : List Nat → Nat) (score : List K) : Except PyErr Nat :=
  if score.isEmpty then .error .valueError else .ok (choose (argmaxes score))

/-! ## The choice of Adaptive -/

/-- multi_label.py:1077-1084: the positions with the largest score for some `b`; `set` iterates in some order `order`. -/
def candidates (order : List Nat → List Nat) (scores : List (List K)) : List Nat :=
  order ((scores.map argmaxes).flatten.eraseDups)

/-- multi_label.py:1106-1107: among the candidates those with the smallest estimated error, and one of them by chance. -/
def adaptiveAsk (order : List Nat → List Nat) (choose : List Nat → Nat) (scores : List (List K)) (err : Nat → K) : Except PyErr Nat :=
  let cs := candidates order scores
  let errs := cs.map err
  let choices := (List.range errs.length).filter (fun i => errs.all (fun w => decide (errs.getD i 0 ≤ w)))
  if cs.isEmpty then .error .valueError
  else
    match cs[choose choices]? with
    | none => .error .indexError
    | some k => .ok k

end
end Alipy.MLBatch

import Verif.Model.Py
import Verif.Model.IndexCollection
import Mathlib.Data.Rat.Floor

/-!
# Model of `alipy/utils/misc.py`: `randperm`, `nlargestarg`, `nsmallestarg`
and of `IndexCollection.random_sampling`.
-/
namespace Alipy

/-- Python's `l[:k]` for an integer `k` (negative counts from the end). misc.py lines 105 and 158. -/
def pySliceTo {α : Type} (l : List α) (k : Int) : List α :=
  if 0 ≤ k then l.take k.toNat else l.take (l.length - (-k).toNat)

/-- Python's `l[k:]` for an integer `k` (negative counts from the end). misc.py line 135. -/
def pySliceFrom {α : Type} (l : List α) (k : Int) : List α :=
  if 0 ≤ k then l.drop k.toNat else l.drop (l.length - (-k).toNat)

/-- `np.arange(start, stop)` on integers. misc.py line 103. -/
def pyRange (start stop : Int) : List Int :=
  (List.range (stop - start).toNat).map (fun i : Nat => start + (i : Int))

/-- Python 3's `round(q)`: nearest integer, ties to even. (The float product that is rounded is modelled by
an exact rational.). index_collections.py line 225. -/
def pyRound (q : ℚ) : Int :=
  let f := ⌊q⌋
  let d := q - f
  if d < 1 / 2 then f else if 1 / 2 < d then f + 1 else if f % 2 = 0 then f else f + 1

/-- First argument of `randperm`: an integer, a pair, anything else. misc.py lines 81-94. -/
inductive RandArg where
  | int (n : Int)
  | pair (start : Option Int) (stop : Int)
  | other

/-- Second argument of `randperm`. misc.py lines 96-99. -/
inductive RandK where
  | default
  | int (k : Int)
  | other

/-- `randperm`, misc.py lines 81-105. `shuffle` is the effect of `np.random.shuffle` in this call. -/
def randperm (shuffle : List Int → List Int) (n : RandArg) (k : RandK) : Except PyErr (List Int) :=
  let body (start stop : Int) : Except PyErr (List Int) :=
    match k with
    | .other => .error .typeError
    | .default => .ok (pySliceTo (shuffle (pyRange start (stop + 1))) (stop - start + 1))
    | .int k =>
      if stop - start + 1 < k then .error .valueError
      else .ok (pySliceTo (shuffle (pyRange start (stop + 1))) k)
  match n with
  | .other => .error .typeError
  | .int e => body 0 e
  | .pair (some s) e => body s e
  | .pair none e => body 0 e

/-- `nlargestarg(a, n)`, misc.py lines 131-135, as a function of the array `argret = np.argsort(a)`. -/
def nlargestarg (argret : List Nat) (n : Int) : Except PyErr (List Nat) :=
  if 0 < n then .ok (pySliceFrom argret ((argret.length : Int) - n)) else .error .assertionError

/-- `nsmallestarg(a, n)`, misc.py lines 154-158, as a function of the array `argret = np.argsort(a)`. -/
def nsmallestarg (argret : List Nat) (n : Int) : Except PyErr (List Nat) :=
  if 0 < n then .ok (pySliceTo argret n) else .error .assertionError

/-- `[self.index[i] for i in perm]`, index_collections.py line 226; a position out of range raises. -/
def pickAll {α : Type} (l : List α) : List Int → Except PyErr (List α)
  | [] => .ok []
  | i :: is =>
    match (if 0 ≤ i then l[i.toNat]? else none) with
    | none => .error .indexError
    | some v =>
      match pickAll l is with
      | .error e => .error e
      | .ok vs => .ok (v :: vs)

namespace IC

/-- `random_sampling`, index_collections.py lines 211-226. -/
def randomSampling (shuffle : List Int → List Int) (c : IC) (rate : ℚ) : Except PyErr IC :=
  if 0 < rate ∧ rate < 1 then
    match randperm shuffle (.int ((c.inner.length : Int) - 1)) (.int (pyRound (rate * c.inner.length))) with
    | .error e => .error e
    | .ok perm =>
      match pickAll c.inner perm with
      | .error e => .error e
      | .ok vs => .ok (mk' vs)
  else .error .assertionError

end IC
end Alipy

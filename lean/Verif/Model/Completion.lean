import Verif.Model.IndexCollection
import Mathlib.Algebra.Order.Field.Basic
import Mathlib.Data.List.FinRange
import Mathlib.Data.Fintype.Basic

/-! # Model of the matrix completion and the feature selection of `alipy/query_strategy/query_features.py`

A matrix with `r` rows and `c` columns is a function of the row and the column. Numerical procedures (pseudo-inverse, singular
value decomposition) are parameters. -/
namespace Alipy.Features

/-- Matrices. query_features.py line 168. -/
abbrev Mat (r c : Nat) (K : Type) := Fin r → Fin c → K

variable {K : Type} {r c : Nat}

/-- `A * B` for arrays. Lines 185 and 263. -/
def had [Mul K] (A B : Mat r c K) : Mat r c K := fun i j => A i j * B i j

/-- `1 - A`. Lines 263 and 367. -/
def compl [Sub K] [One K] (A : Mat r c K) : Mat r c K := fun i j => 1 - A i j

/-- `A + B`. Lines 263 and 385. -/
def plus [Add K] (A B : Mat r c K) : Mat r c K := fun i j => A i j + B i j

/-- All positions, row by row. Lines 470-472 and 475. -/
def cells (r c : Nat) : List (Fin r × Fin c) := (List.finRange r).flatMap (fun i => (List.finRange c).map (fun j => (i, j)))

/-- The check of a mask, lines 177-183 and 360-366: `np.unique(mask)` has exactly the elements 0 and 1. -/
def isMask [DecidableEq K] [Zero K] [One K] (m : Mat r c K) : Bool :=
  (cells r c).all (fun p => m p.1 p.2 = 0 || m p.1 p.2 = 1) && (cells r c).any (fun p => m p.1 p.2 = 0) && (cells r c).any (fun p => m p.1 p.2 = 1)

/-! ## `AFASMC_mask_mc` -/

/-- The inner loop, lines 206-249. `it k` is what the k-th step computes: the matrix `Z1` and the value of the objective. Returned
are the smallest objective, its matrix, and the last `k`. `prev` is the objective of the step before. -/
def innerLoop {μ : Type} [Field K] [LinearOrder K] (it : Nat → μ × K) : Nat → Nat → K → K × μ → (K × μ) × Nat
  | 0, k, _, best => (best, k - 1)
  | n + 1, k, prev, best =>
    let z := it k
    let best := if z.2 < best.1 then (z.2, z.1) else best
    if |z.2 - prev| < 1 / 1000000 * prev then (best, k) else innerLoop it n (k + 1) z.2 best

/-- The whole inner loop: the first step has no predecessor. Without any step the variables read afterwards are not set
(UnboundLocalError). Lines 204-249. -/
def inner {μ : Type} [Field K] [LinearOrder K] (it : Nat → μ × K) (maxIn : Nat) : Option ((K × μ) × Nat) :=
  match maxIn with
  | 0 => none
  | n + 1 => some (innerLoop it n 1 (it 0).2 ((it 0).2, (it 0).1))

/-- `converge_out[k - 1]`: for `k = 0` the last entry. Line 260. -/
def before [Zero K] (conv : List K) (k : Nat) : K := if k = 0 then conv.getLastD 0 else conv.getD (k - 1) 0

/-- The outer loop from its second round on, lines 197-261. The objective of round `i` is stored at position `i` of an array with as many
entries as there may be inner steps, but it is read at the last inner step `k`. The array has one column, so that `minObj_out = converge_out[k]`
is not a number but a view of row `k`, which shows what is stored there later: `best` is the number of the row and `Xmc`. -/
def outerLoop {μ : Type} [Field K] [LinearOrder K] (it : Nat → Nat → μ × K) (maxIn : Nat) : Nat → Nat → List K → Nat × μ → Except PyErr μ
  | 0, _, _, best => .ok best.2
  | n + 1, i, conv, best =>
    match inner (it i) maxIn with
    | none => .error .genericException
    | some ((obj, x), k) =>
      if conv.length ≤ i then .error .indexError
      else
        let conv := conv.set i obj
        let ck := conv.getD k 0
        let best := if ck < conv.getD best.1 0 then (k, x) else best
        if |ck - before conv k| < 1 / 10000 * before conv k then .ok best.2 else outerLoop it maxIn n (i + 1) conv best

/-- The outer loop. Lines 195-261. -/
def outer {μ : Type} [Field K] [LinearOrder K] (it : Nat → Nat → μ × K) (maxIn maxOut : Nat) : Except PyErr μ :=
  match maxOut with
  | 0 => .error .genericException
  | n + 1 =>
    match inner (it 0) maxIn with
    | none => .error .genericException
    | some ((obj, x), k) =>
      let conv := (List.replicate maxIn 0).set 0 obj
      outerLoop it maxIn n 1 conv (k, x)

/-- `AFASMC_mask_mc`, lines 133-263, without the loops: `complete` computes `Xmc` from the observed part of the matrix `X_obr` (lines
184-185), the labels and the mask, which it contains as parameters. -/
def afasmc [Mul K] [Add K] [Sub K] [One K] [Zero K] [DecidableEq K] (check : Bool) (complete : Mat r c K → Except PyErr (Mat r c K)) (X mask : Mat r c K) :
    Except PyErr (Mat r c K) :=
  if check && !isMask mask then .error .assertionError
  else
    match complete (had mask X) with
    | .error e => .error e
    | .ok Xmc => .ok (plus (had (compl mask) Xmc) (had mask X))

/-! ## `IterativeSVD_mc` -/

/-- `_clip`, lines 329-338. -/
def clip [LT K] [DecidableLT K] (lo hi : Option K) (x : K) : K :=
  let x := match lo with
    | some a => if x < a then a else x
    | none => x
  match hi with
  | some b => if b < x then b else x
  | none => x

/-- The sum of the squares of the entries. Lines 320-321. -/
def sqSum [Mul K] [Add K] [Zero K] (A : Mat r c K) : K := ((cells r c).map (fun p => A p.1 p.2 * A p.1 p.2)).sum

/-- `_converged`, lines 314-327; `prec` is the precision of 32-bit numbers. -/
def converged [Field K] [LinearOrder K] (prec threshold : K) (old new missing : Mat r c K) : Bool :=
  let ssd := sqSum (fun i j => had old missing i j - had new missing i j)
  let norm := sqSum (had old missing)
  if norm = 0 ∨ (norm < prec ∧ prec < ssd) then false else decide (ssd / norm < threshold)

/-- The parameters of the object. Lines 297-312. -/
structure Svd (K : Type) where
  rank : Nat
  threshold : K
  gradual : Bool
  lo : Option K
  hi : Option K
  prec : K

/-- The loop, lines 369-388. `svd k` is the reconstruction from the truncated decomposition of rank `k`. -/
def imputeLoop [Field K] [LinearOrder K] (o : Svd K) (svd : Nat → Mat r c K → Mat r c K) (X mask : Mat r c K) : Nat → Nat → Mat r c K → Mat r c K
  | 0, _, filled => filled
  | n + 1, i, filled =>
    let k := if o.gradual then min (2 ^ i) o.rank else o.rank
    let rec' : Mat r c K := fun a b => clip o.lo o.hi (svd k filled a b)
    let done := converged o.prec o.threshold filled rec' (compl mask)
    let filled := plus (had rec' (compl mask)) (had X mask)
    if done then filled else imputeLoop o svd X mask n (i + 1) filled

/-- `impute`, lines 340-388. The matrix the iteration starts from (line 368) is `X * missing_mask`. -/
def impute [Field K] [LinearOrder K] (o : Svd K) (svd : Nat → Mat r c K → Mat r c K) (maxIters : Nat) (check : Bool) (X mask : Mat r c K) :
    Except PyErr (Mat r c K) :=
  if check && !isMask mask then .error .assertionError
  else .ok (imputeLoop o svd X mask maxIters 0 (had X (compl mask)))

/-! ## Numbers with NaN -/

/-- A floating-point number: exact, or NaN. What lines 366-368 and 385 compute with for missing values. -/
inductive Flt (K : Type) where
  | num (x : K)
  | nan
  deriving DecidableEq, Repr

instance [Mul K] : Mul (Flt K) := ⟨fun a b => match a, b with
  | .num x, .num y => .num (x * y)
  | _, _ => .nan⟩
instance [Add K] : Add (Flt K) := ⟨fun a b => match a, b with
  | .num x, .num y => .num (x + y)
  | _, _ => .nan⟩
instance [Sub K] : Sub (Flt K) := ⟨fun a b => match a, b with
  | .num x, .num y => .num (x - y)
  | _, _ => .nan⟩
instance [Zero K] : Zero (Flt K) := ⟨.num 0⟩
instance [One K] : One (Flt K) := ⟨.num 1⟩

/-! ## Feature selection -/

/-- `np.var`. Lines 472, 513 and 679. -/
def variance [Field K] (l : List K) : K :=
  (l.map (fun x => (x - l.sum / l.length) * (x - l.sum / l.length))).sum / l.length

/-- `np.argmax` of a matrix: the first largest entry in row-major order, as a position (row and column, lines 475-479, 516-520 and 681-685). -/
def argmaxCell [LinearOrder K] (A : Mat r c K) : Option (Fin r × Fin c) :=
  (cells r c).find? (fun p => (cells r c).all (fun q => decide (A q.1 q.2 ≤ A p.1 p.2)))

/-- The choice of `QueryFeatureAFASMC.select_by_mask` (lines 481-520) and `QueryFeatureStability.select_by_mask` (lines 646-685) given
the completed matrices: those of all calls so far, and those of the members of the committee. An empty matrix has no argmax
(ValueError). -/
def chooseCell [Field K] [LinearOrder K] (mats : List (Mat r c K)) (mask : Mat r c K) : Except PyErr (Fin r × Fin c) :=
  let score : Mat r c K := if 2 ≤ mats.length then had (fun i j => variance (mats.map (fun M => M i j))) (compl mask) else compl mask
  match argmaxCell score with
  | none => .error .valueError
  | some p => .ok p

/-- The object `QueryFeatureAFASMC` keeps the completed matrices; `select_by_mask`, lines 481-520. -/
def afasmcSelect [Field K] [LinearOrder K] (complete : Mat r c K → Except PyErr (Mat r c K)) (X : Mat r c K) (hist : List (Mat r c K)) (mask : Mat r c K) :
    List (Mat r c K) × Except PyErr (Fin r × Fin c) :=
  match afasmc false complete X mask with
  | .error e => (hist, .error e)
  | .ok M => (hist ++ [M], chooseCell (hist ++ [M]) mask)

/-- `np.argwhere(self._train_idx == entry[0])[0][0]`: position of an index in the training indexes. `compares`: is `_train_idx == entry[0]` a comparison element by element? It is if
`_train_idx` is an array. If it is a list, it is if `entry[0]` is a numpy number (see `listCompares` in Model/MultiLabel.lean); otherwise it is False and IndexError is raised. Lines 458 and 635. -/
def posInTrain (compares : Bool) (train : List Int) (e : Int) : Except PyErr Nat :=
  if compares && train.contains e then .ok (train.idxOf e) else .error .indexError

/-- The mapping of the observed entries to the training set, lines 455-462 and 632-639; `cmp` as in `posInTrain`, for every entry. -/
def mapEntries (cmp : Int × Nat → Bool) (train : List Int) : List (Int × Nat) → Except PyErr (List (Nat × Nat))
  | [] => .ok []
  | (e, f) :: r =>
    match posInTrain (cmp (e, f)) train e with
    | .error err => .error err
    | .ok p =>
      match mapEntries cmp train r with
      | .error err => .error err
      | .ok ps => .ok ((p, f) :: ps)

/-- `get_matrix_mask(mat_shape, sparse=False)` of entries within the shape (index_collections.py, modelled in full in
`Verif.Model.MultiLabel`). Lines 473 and 642. -/
def maskOf [Zero K] [One K] (r c : Nat) (es : List (Nat × Nat)) : Mat r c K := fun i j => if ((i : Nat), (j : Nat)) ∈ es then 1 else 0

/-- `select` of `QueryFeatureAFASMC` (lines 422-479) and `QueryFeatureStability` (lines 599-644) with training indexes given: the
entries to choose from are used for their number only. `mats` gives the completed matrices for a mask. At most one entry is returned
as it is. -/
def featureSelect [Field K] [LinearOrder K] (cmp : Int × Nat → Bool) (train : List Int) (nFeat : Nat)
    (mats : Mat train.length nFeat K → Except PyErr (List (Mat train.length nFeat K)))
    (observed unknown : List (Int × Nat)) : Except PyErr (List (Int × Nat)) :=
  if unknown.length ≤ 1 then .ok unknown
  else
    match mapEntries cmp train observed with
    | .error e => .error e
    | .ok es =>
      let mask := maskOf train.length nFeat es
      match mats mask with
      | .error e => .error e
      | .ok ms =>
        match chooseCell ms mask with
        | .error e => .error e
        | .ok p => .ok [(train.get p.1, p.2)]

/-- The completed matrices of `QueryFeatureAFASMC`: those of the calls before and the one for this mask, lines 465-466. -/
def afasmcMats [Mul K] [Add K] [Sub K] [One K] [Zero K] [DecidableEq K] (complete : Mat r c K → Mat r c K → Except PyErr (Mat r c K)) (X : Mat r c K) (hist : List (Mat r c K)) (mask : Mat r c K) :
    Except PyErr (List (Mat r c K)) :=
  match afasmc false (complete mask) X mask with
  | .error e => .error e
  | .ok M => .ok (hist ++ [M])

/-- The completed matrices of `QueryFeatureStability`, lines 670-672: one for each member of the committee (lines 593-597), each of which
checks the mask (line 360). The members have the default of 200 iterations (line 301). -/
def committeeMats [Field K] [LinearOrder K] (committee : List (Svd K)) (svd : Nat → Mat r c K → Mat r c K) (X mask : Mat r c K) : Except PyErr (List (Mat r c K)) :=
  committee.mapM (fun o => impute o svd 200 true X mask)

end Alipy.Features

import Verif.Model.Py
import Mathlib.Algebra.BigOperators.Fin
import Mathlib.Algebra.Order.Field.Basic

/-! # Model of `LabelRankingModel`, `alipy/query_strategy/multi_label.py` lines 39-348

Numbers are elements of a linearly ordered field. An example is a vector `Fin d → K`; the latent space has dimension `D` (200 in the code). Columns of
`B` are numbered: label `c` has the columns `c * num_sub, ..., c * num_sub + num_sub - 1`. `norm_up` is infinite in the code, so that the branches that
scale a column down (lines 117-124, 215-221, 226-227, 230-233) are never taken; they are left out. Assumed: as many rows of labels as examples, and every
call of `fit` with as many label columns as the first. -/
namespace Alipy.LR
variable {K : Type} [Field K] [LinearOrder K] {D d : Nat}

/-- Lines 142-143 (also 73-74, 90-91): a threshold label, marked by 2, is appended as last column unless there is a 2 somewhere. -/
def addDummy (rows : List (List K)) : List (List K) :=
  if rows.any (fun r => r.any (fun v => v = 2)) then rows else rows.map (fun r => r ++ [2])

/-- `np.nonzero(row == -1)[0]`. multi_label.py lines 182 and 186. -/
def negatives (row : List K) : List Nat := (List.range row.length).filter (fun l => row[l]? = some (-1))

/-- The labels that should be ranked below label `c`, lines 181-186. -/
def irrelevant (row : List K) (c : Nat) : List Nat :=
  if c = row.length - 1 then negatives row else negatives row ++ [row.length - 1]

/-- `np.nonzero(row >= 1)[0]`. multi_label.py line 149. -/
def positives (row : List K) : List Nat := (List.range row.length).filter (fun l => (row[l]?).any (fun v => decide (1 ≤ v)))

/-- `np.nonzero(targets >= 1)`, lines 149-150: the pairs (example, label), row by row. -/
def trainPairs (rows : List (List K)) : List (Nat × Nat) :=
  rows.zipIdx.flatMap (fun p => (positives p.1).map (fun l => (p.2, l)))

/-- `V.dot(xins)`. multi_label.py line 190. -/
def embed (V : Fin D → Fin d → K) (x : Fin d → K) : Fin D → K := fun a => ∑ k, V a k * x k

/-- The score of column `k` of `B`. multi_label.py lines 191 and 202. -/
def colScore (B : Nat → Fin D → K) (w : Fin D → K) (k : Nat) : K := ∑ a, B k a * w a

/-- `np.argmax` of `f 0, ..., f n`. multi_label.py lines 192 and 204. -/
def argmaxUpTo (f : Nat → K) : Nat → Nat
  | 0 => 0
  | n + 1 => if f (argmaxUpTo f n) < f (n + 1) then n + 1 else argmaxUpTo f n

/-- The column of label `c` with the largest score, lines 189-193, 202-204. -/
def bestCol (numSub : Nat) (B : Nat → Fin D → K) (w : Fin D → K) (c : Nat) : Nat :=
  c * numSub + argmaxUpTo (fun j => colScore B w (c * numSub + j)) (numSub - 1)

/-- The constants of a model, lines 98-108. -/
structure Par (K : Type) where
  costs : List K
  numSub : Nat
  step0 : K
  lmbda : K
  avgBegin : Nat
  avgSize : Nat

/-- `costs`, lines 106-108: the sums `1 + 1/2 + ... + 1/k`. -/
def harmonics : Nat → K → Nat → List K
  | 0, _, _ => []
  | n + 1, acc, k => (acc + 1 / ((k : K) + 1)) :: harmonics n (acc + 1 / ((k : K) + 1)) (k + 1)

/-- The constants for `n_class` labels (with the threshold label), lines 98-108. -/
def Par.std (nClass : Nat) : Par K := ⟨harmonics (nClass * 5) 0 0, 5, 1 / 20, 0, 10, 5⟩

/-- What `train_model` passes on: lines 137-138, 239. -/
structure St (D d : Nat) (K : Type) where
  B : Nat → Fin D → K
  V : Fin D → Fin d → K
  AB : Nat → Fin D → K
  AV : Fin D → Fin d → K
  Anum : Nat
  trounds : Nat

/-- Lines 194-207: labels are drawn from `irr` until one violates the margin, at most `n` times; the number of the draw and the label. `pick j n`
is what `randperm(n_irr - 1, 1)[0]` gives in draw `j`. -/
def search (numSub : Nat) (B : Nat → Fin D → K) (w : Fin D → K) (fy : K) (irr : List Nat) (pick : Nat → Nat → Nat) : Nat → Nat → Option (Nat × Nat)
  | 0, _ => none
  | n + 1, j =>
    let c := irr.getD (pick j irr.length) 0
    if fy - 1 < colScore B w (bestCol numSub B w c) then some (j, c) else search numSub B w fy irr pick n (j + 1)

/-- The update of the two columns and of `V`, lines 210-229; `loss` is `costs[...]`. -/
def update (s : St D d K) (η loss : K) (x : Fin d → K) (own other : Nat) (Vx : Fin D → K) : St D d K :=
  { s with
    V := fun a k => s.V a k - η * loss * (s.B other a * x k + s.B own a * (- x k))
    B := fun k => if k = other then fun a => s.B other a - η * loss * Vx a
      else if k = own then fun a => s.B own a + η * loss * Vx a
      else s.B k
    trounds := s.trounds + 1 }

/-- Lines 178-233: one pair (example, label). -/
def step (p : Par K) (X : Nat → Fin d → K) (rows : List (List K)) (pick : Nat → Nat → Nat) (s : St D d K) (pair : Nat × Nat) : Except PyErr (St D d K) :=
  let x := X pair.1
  let Vx := embed s.V x
  let irr := irrelevant (rows.getD pair.1 []) pair.2
  let own := bestCol p.numSub s.B Vx pair.2
  match search p.numSub s.B Vx (colScore s.B Vx own) irr pick irr.length 0 with
  | none => .ok s
  | some (j, c) =>
    match p.costs[irr.length / (j + 1) - 1]? with
    | none => .error .indexError
    | some loss => .ok (update s (p.step0 / (1 + p.lmbda * s.trounds * p.step0)) loss x own (bestCol p.numSub s.B Vx c) Vx)

/-- Lines 234-237: a snapshot is added to the averages. -/
def snapshot (p : Par K) (i : Nat) (s : St D d K) : St D d K :=
  if i = 0 ∨ (p.avgBegin < s.trounds ∧ i % p.avgSize = 0) then
    { s with AB := fun k a => s.AB k a + s.B k a, AV := fun a k => s.AV a k + s.V a k, Anum := s.Anum + 1 }
  else s

/-- The loop of `train_model`, line 177. -/
def loop (p : Par K) (X : Nat → Fin d → K) (rows : List (List K)) (pick : Nat → Nat → Nat → Nat) : List (Nat × Nat) → Nat → St D d K →
    Except PyErr (St D d K)
  | [], _, s => .ok s
  | pair :: r, i, s =>
    match step p X rows (pick i) s pair with
    | .error e => .error e
    | .ok s' => loop p X rows pick r (i + 1) (snapshot p i s')

/-- The random numbers of one call of `train_model`: the order of the pairs, and the draws. multi_label.py lines 172 and 196. -/
structure Rand where
  order : List (Nat × Nat) → List (Nat × Nat)
  pick : Nat → Nat → Nat → Nat

/-- `train_model`, lines 137-239. -/
def train (p : Par K) (X : Nat → Fin d → K) (y : List (List K)) (ρ : Rand) (s : St D d K) : Except PyErr (St D d K) :=
  loop p X (addDummy y) ρ.pick (ρ.order (trainPairs (addDummy y))) 0 s

/-- Several calls of `train_model`, which `init_model_train` (lines 131-133) and `fit` (lines 340-344) make. -/
def trainAll (p : Par K) (X : Nat → Fin d → K) (y : List (List K)) : List Rand → St D d K → Except PyErr (St D d K)
  | [], s => .ok s
  | ρ :: r, s =>
    match train p X y ρ s with
    | .error e => .error e
    | .ok s' => trainAll p X y r s'

/-- A `LabelRankingModel` object. `train_model` changes the arrays `B` and `V` in place (lines 222, 228-229; `np.asarray` does not copy), so that
`self._B` and the `B` in `self._ini_parameters` are one array, and so for `V`: there is one `B` and one `V` in `cur`. The averages are new arrays every
time (lines 235-236), those of the initial training are kept. `B` has `nClass * num_sub` columns. -/
structure Obj (D d : Nat) (K : Type) where
  nClass : Nat
  par : Par K
  cur : St D d K
  iniAB : Nat → Fin D → K
  iniAV : Fin D → Fin d → K
  iniAnum : Nat
  iniTrounds : Nat

/-- `init_model_train`, lines 83-135, from the random matrices `B0` and `V0`. -/
def initTrain (B0 : Nat → Fin D → K) (V0 : Fin D → Fin d → K) (X : Nat → Fin d → K) (y : List (List K)) (ρs : List Rand) : Except PyErr (Obj D d K) :=
  let n := ((addDummy y).headD []).length
  let p : Par K := .std n
  match trainAll p X y ρs ⟨B0, V0, fun _ _ => 0, fun _ _ => 0, 0, 0⟩ with
  | .error e => .error e
  | .ok s => .ok ⟨n, p, s, s.AB, s.AV, s.Anum, s.trounds⟩

/-- `fit` of an initialised model, lines 335-344. If a call raises, the object is not of interest. -/
def refit (o : Obj D d K) (X : Nat → Fin d → K) (y : List (List K)) (incremental : Bool) (ρs : List Rand) : Except PyErr (Obj D d K) :=
  let s := if incremental then o.cur else { o.cur with AB := o.iniAB, AV := o.iniAV, Anum := o.iniAnum, trounds := o.iniTrounds }
  match trainAll o.par X y ρs s with
  | .error e => .error e
  | .ok s' => .ok { o with cur := s' }

/-- The first `fit` of a model constructed without data, lines 328-344. -/
def firstFit (B0 : Nat → Fin D → K) (V0 : Fin D → Fin d → K) (X : Nat → Fin d → K) (y : List (List K)) (ρs ρs' : List Rand) (incremental : Bool) :
    Except PyErr (Obj D d K) :=
  match initTrain B0 V0 X y ρs with
  | .error e => .error e
  | .ok o => refit o X y incremental ρs'

/-- `get_BV`, lines 79-81: entry (k, c) of the product of the averages. Division by `Anum = 0` gives NaN in numpy; see `C86_averages_partial`. -/
def getBV (s : St D d K) (k : Fin d) (c : Nat) : K := ∑ a, s.AV a k / s.Anum * (s.AB c a / s.Anum)

/-- `np.fmax` over the slices `fs[:, j::num_sub]`, lines 248-252: the scores of the labels; `fs` is one row of `data.dot(BV)`. The start value `-inf`
is replaced by the first slice. -/
def ranks (numSub nClass : Nat) (fs : Nat → K) : List K :=
  (List.range nClass).map (fun c => (List.range (numSub - 1)).foldl (fun m j => max m (fs ((j + 1) + c * numSub))) (fs (0 + c * numSub)))

/-- Lines 253-256. -/
def signs (pres : List K) : List Int :=
  (List.range (pres.length - 1)).map (fun l => match pres[l]?, pres[pres.length - 1]? with
    | some f, some t => if t < f then 1 else -1
    | _, _ => -1)

/-- `lr_predict` of one example and `predict`, lines 241-257 and 346-348. The number of columns of `BV` is that of `B` (line 111). -/
def predict (o : Obj D d K) (x : Fin d → K) : List K × List Int :=
  let pres := ranks o.par.numSub o.nClass (fun c => ∑ k, x k * getBV o.cur k c)
  (pres, signs pres)

end Alipy.LR

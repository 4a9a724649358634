import Verif.Model.Oracle
import Verif.Model.Select
import Verif.Model.Repository

/-! # Model of `alipy/query_strategy/noisy_oracles.py`

`β` is the type of labels (hashable values), `K` an ordered field for the floating-point numbers. -/
namespace Alipy.Noisy
open Alipy.Select
variable {χ β K : Type} [DecidableEq β] [DecidableEq χ]

/-- `collections.Counter(labels)`: a dictionary in the order of first occurrence. noisy_oracles.py line 86. -/
def counter (labels : List β) : List (β × Nat) :=
  labels.foldl (fun d x => dictSet x ((dictGet x d).getD 0 + 1) d) []

/-- `Counter.most_common(n=1)`: `max` of the items by count, which keeps the first of several largest ones; the empty list if
there are no items. Line 87. -/
def mostCommon : List (β × Nat) → Option (β × Nat)
  | [] => none
  | p :: r => some (r.foldl (fun m q => if m.2 < q.2 then q else m) p)

/-- `majority_vote`, noisy_oracles.py lines 60-88. `most_votes[0]` raises IndexError if there is no label. -/
def majorityVote (labels : List β) (weight : Option (List K)) : Except PyErr (Nat × β) :=
  if !(sameLength labels.length weight) then .error .assertionError
  else
    match mostCommon (counter labels) with
    | none => .error .indexError
    | some p => .ok (p.2, p.1)

/-- `lab[0]` and `np.sum(co)` of one answer. Lines 130-131. -/
def firstOf (r : List β × List ℚ) : Except PyErr (β × ℚ) :=
  match r.1 with
  | [] => .error .indexError
  | l :: _ => .ok (l, r.2.sum)

/-- The loop of `get_query_results` over a list of oracles, lines 126-131 (`names` is not used in this case). -/
def askEach (k : Key) : List (Oracle χ β) → Except PyErr (List (β × ℚ))
  | [] => .ok []
  | o :: r =>
    match o.queryByIndex [k] with
    | .error e => .error e
    | .ok a =>
      match firstOf a with
      | .error e => .error e
      | .ok p =>
        match askEach k r with
        | .error e => .error e
        | .ok ps => .ok (p :: ps)

/-- `get_majority_vote`, lines 138-170, with a list of oracles. -/
def voteOfList (k : Key) (os : List (Oracle χ β)) : Except PyErr (Nat × β × ℚ) :=
  match askEach k os with
  | .error e => .error e
  | .ok ps =>
    match majorityVote (K := ℚ) (ps.map Prod.fst) none with
    | .error e => .error e
    | .ok (n, l) => .ok (n, l, (ps.map Prod.snd).sum)

/-- `[res[0][0] for res in results]` and `[np.sum(res[1]) for res in results]`, lines 134-135. -/
def firsts : List (Answer (List β)) → Except PyErr (List β)
  | [] => .ok []
  | a :: r =>
    match a.labels with
    | [] => .error .indexError
    | l :: _ =>
      match firsts r with
      | .error e => .error e
      | .ok ls => .ok (l :: ls)

/-- `get_majority_vote`, lines 138-170, with an `Oracles` object. -/
def voteOfOracles (k : Key) (o : Oracles (List β) Key) (names : Option (List String)) :
    Oracles (List β) Key × Except PyErr (Nat × β × ℚ) :=
  match o.queryFromS k names with
  | (o', .error e) => (o', .error e)
  | (o', .ok rs) =>
    match firsts rs with
    | .error e => (o', .error e)
    | .ok ls =>
      match majorityVote (K := ℚ) ls none with
      | .error e => (o', .error e)
      | .ok (n, l) => (o', .ok (n, l, (rs.map (fun a => a.costs.nums.sum)).sum))

/-! ## `QueryNoisyOraclesIEthresh` -/

/-- The numerical functions used: critical values of Student's distribution, `np.std`, `np.sqrt`. Lines 531, 539 and 540. -/
structure Stats (K : Type) where
  crit : Nat → K
  std : List K → K
  sqrt : Nat → K

/-- The object: the labels given by each oracle, the results of the votes, the scores (`none` is NaN), lines 499-505. -/
structure IE (β K : Type) where
  hist : List (List (Key × β))
  vote : List (Key × β)
  ui : List (Option K)
  deriving DecidableEq, Repr

/-- A new object for `n` oracles, lines 495-506. -/
def IE.new [One K] (n : Nat) : IE β K := ⟨List.replicate n [], [], List.replicate n (some 1)⟩

/-- `reward_arr` in `_calc_uia`, lines 532-537; an instance without result of the vote raises KeyError. -/
def rewards [Field K] (vote : List (Key × β)) : List (Key × β) → Except PyErr (List K)
  | [] => .ok []
  | (k, l) :: r =>
    match dictGet k vote with
    | none => .error .keyError
    | some m =>
      match rewards vote r with
      | .error e => .error e
      | .ok rs => .ok ((if l = m then 1 else 0) :: rs)

/-- `_calc_uia`, lines 508-541: `n` is the number of oracles. With one oracle the distribution has no degree of freedom and the
critical value is NaN. -/
def calcUia [Field K] (st : Stats K) (n : Nat) (vote hist : List (Key × β)) : Except PyErr (Option K) :=
  match rewards vote hist with
  | .error e => .error e
  | .ok rs => .ok (if n ≤ 1 then none else some (rs.sum / rs.length + st.crit (n - 1) * st.std rs / st.sqrt n))

/-- `np.max`: NaN if there is a NaN. Line 556. -/
def npMax [LinearOrder K] : List (Option K) → Option K
  | [] => none
  | [x] => x
  | x :: r =>
    match x, npMax r with
    | some a, some b => some (max a b)
    | _, _ => none

/-- `a >= b` for numbers which may be NaN. Line 556. -/
def npGe [LinearOrder K] : Option K → Option K → Bool
  | some a, some b => decide (b ≤ a)
  | _, _ => false

/-- `np.nonzero(self._UI >= self.epsilon * np.max(self._UI))[0]`, lines 556-557. -/
def chosen [Field K] [LinearOrder K] (eps : K) (ui : List (Option K)) : List Nat :=
  (List.range ui.length).filter (fun i => npGe (ui.getD i none) ((npMax ui).map (fun m => eps * m)))

/-- The loop of lines 561-564. The history is returned as it is when the loop ends or raises. -/
def labelLoop (ask : Nat → Key → Except PyErr β) (k : Key) : List (List (Key × β)) → List Nat → List (List (Key × β)) × Except PyErr (List β)
  | h, [] => (h, .ok [])
  | h, i :: r =>
    match ask i k with
    | .error e => (h, .error e)
    | .ok l =>
      match labelLoop ask k (h.modify i (dictSet k l)) r with
      | (h', .error e) => (h', .error e)
      | (h', .ok ls) => (h', .ok (l :: ls))

/-- The loop of lines 570-571. -/
def scoreLoop [Field K] (st : Stats K) (n : Nat) (vote : List (Key × β)) (hist : List (List (Key × β))) :
    List (Option K) → List Nat → List (Option K) × Option PyErr
  | ui, [] => (ui, none)
  | ui, i :: r =>
    match calcUia st n vote (hist.getD i []) with
    | .error e => (ui, some e)
    | .ok u => scoreLoop st n vote hist (ui.set i u) r

/-- `select_by_given_instance`, lines 543-574. `np.max` of no scores raises ValueError. The array `reward_arr` of lines 566-568
is not used afterwards. -/
def IE.select [Field K] [LinearOrder K] (st : Stats K) (eps : K) (ask : Nat → Key → Except PyErr β) (o : IE β K) (k : Key) :
    IE β K × Except PyErr (List Nat) :=
  if o.ui.isEmpty then (o, .error .valueError)
  else
    let sel := chosen eps o.ui
    match labelLoop ask k o.hist sel with
    | (h, .error e) => ({ o with hist := h }, .error e)
    | (h, .ok ls) =>
      match majorityVote (K := K) ls none with
      | .error e => ({ o with hist := h }, .error e)
      | .ok (_, m) =>
        let v := dictSet k m o.vote
        match scoreLoop st o.ui.length v h o.ui sel with
        | (ui, some e) => (⟨h, v, ui⟩, .error e)
        | (ui, none) => (⟨h, v, ui⟩, .ok sel)

/-! ## `QueryNoisyOraclesCEAL` -/

/-- One entry of the table, lines 367-380: `score` is the mean over the neighbours of distance times correctness, `rx` the
uncertainty (one minus the largest probability), `cost` the cost of the oracle. -/
def qEntry [Field K] [LinearOrder K] (dist : List K) (right : List Bool) (top cost : K) : K :=
  (List.zipWith (fun d (b : Bool) => d * if b then 1 else 0) dist right).sum / dist.length * (1 - top) / max cost (1 / 10000)

/-- The choice of the pair, lines 302-306: the first largest entry of the table (rows are oracles) in row-major order. -/
def bestPair {α ν : Type} [LinearOrder K] (u : List α) (names : List ν) (q : List (List K)) : Except PyErr (α × ν) :=
  let flat := q.flatten
  if flat.isEmpty then .error .valueError
  else
    let p := flat.findIdx (fun v => flat.all (fun w => decide (w ≤ v)))
    match u[p % u.length]?, names[p / u.length]? with
    | some x, some n => .ok (x, n)
    | _, _ => .error .keyError

/-- What is known about one oracle: for each unlabelled example which of its answers on the neighbours are right, the cost of its
first answer on the labelled set, and the fraction of its right answers on the labelled set. Lines 369-380. -/
structure Labeler (K : Type) where
  right : Nat → List Bool
  cost : K
  accuracy : K

/-- `select_by_prediction_mat`, lines 266-306. `kw` are the keyword arguments; line 298 reads `n_neighbors` (which line 297 has
removed) instead of `eval_cost`. `dist i k` are the distances to the `k` nearest neighbours of the i-th unlabelled example, `tops` the
largest predicted probability of each. With at most one unlabelled example `_calc_Q_table` (lines 350-351) returns the array of
indexes, which cannot be unpacked into two values. `kneighbors` (line 360) refuses to look for no neighbours (ValueError), so that at least two
examples have to be labelled initially. -/
def ceal {α ν : Type} [Field K] [LinearOrder K] (kw : List (String × Nat)) (ini : Nat) (u : List α) (names : List ν) (dist : Nat → Nat → List K)
    (tops : List K) (ls : List (Labeler K)) : Except PyErr (α × ν) :=
  let n := min ((dictGet "n_neighbors" kw).getD 10) (ini - 1)
  let kw := dictErase "n_neighbors" kw
  let evalCost := (dictGet "n_neighbors" kw).getD 0
  if u.length ≤ 1 then .error .valueError
  else if n = 0 then .error .valueError
  else
    bestPair u names (ls.map (fun l =>
      tops.mapIdx (fun i t => qEntry (dist i n) (l.right i) t (if evalCost ≠ 0 then l.accuracy else l.cost))))

end Alipy.Noisy

import Verif.Model.Admm
import Mathlib.Data.List.Dedup
import Mathlib.Data.List.Sort
/-!
# The whole `select` of `QueryInstanceBMDR` and `QueryInstanceSPAL`: `alipy/query_strategy/query_labels.py`, lines 1141-1285 and 1417-1582

`Verif.Model.Bmdr` and `Verif.Model.Admm` have the parts. `K` is the kernel matrix by examples, `lab` the labelled examples (by position), `u` the unlabelled ones. The QP solver is a parameter: a
function of the linear part of the objective (and of the weights in the constraint, SPAL); which constraints it was solved with in the end is its affair.
-/
namespace Alipy.Bmdr
open Alipy Alipy.Select Matrix

variable {α : Type} [DecidableEq α] {a : ℕ}

/-- `K[np.ix_(label_index, l)]`, lines 1176, 1257 and 1452. -/
def rowsOf (K : α → α → ℝ) (lab : Fin a → α) (l : List α) : Matrix (Fin a) (Fin l.length) ℝ := Matrix.of fun i j => K (lab i) (l.get j)

/-- `K[np.ix_(label_index, label_index)]`, lines 1175 and 1451. -/
def gram (K : α → α → ℝ) (lab : Fin a → α) : Matrix (Fin a) (Fin a) ℝ := Matrix.of fun i j => K (lab i) (lab j)

/-- The vector `q` of the QP, lines 1198-1202 and 1476-1480; `es` is `es_weight` (1 in BMDR). -/
noncomputable def linearPart (K : α → α → ℝ) (lab : Fin a → α) (u : List α) (beta batch : ℝ) (tau : Fin a → ℝ) (es : Fin u.length → ℝ) (j : Fin u.length) : ℝ :=
  let N : ℝ := (a : ℝ) + u.length
  beta * ((u.length - batch) / N * ∑ i, K (lab i) (u.get j) - (a + batch) / N * ∑ i : Fin u.length, K (u.get i) (u.get j)) + es j * worst ((tau ᵥ* rowsOf K lab u) j)

/-- `QueryInstanceBMDR.select`. `n` is `MAX_ITER`; `qp` gives `dr_weight`. query_labels.py lines 1141-1285. -/
noncomputable def bmdrSelect (argsort : List ℝ → List Nat) (pinv : Matrix (Fin a) (Fin a) ℝ → Matrix (Fin a) (Fin a) ℝ) (qp : ∀ m, (Fin m → ℝ) → Fin m → ℝ) (K : α → α → ℝ) (beta gamma rho : ℝ)
    (n : ℕ) (lab : Fin a → α) (y : α → ℝ) (u : Coll α) (batch : Int) (fuel : ℕ) : Option (Except PyErr (List α)) :=
  select argsort u batch
    (fun tau => List.ofFn (qp u.items.length (linearPart K lab u.items beta batch tau fun _ => 1)))
    (fun tau sel => (admmLoop (rowsOf K lab sel) rho (bmdrRound pinv (gram K lab) (rowsOf K lab sel) gamma rho (fun i => y (lab i))) n (admmStart (rowsOf K lab sel) tau)).tau)
    (initial (gram K lab) gamma fun i => y (lab i)) fuel

/-- The variables of SPAL's outer loop: the model and the easiness weights. query_labels.py lines 1465-1471. -/
structure Spal (a m : ℕ) where
  theta : Fin a → ℝ
  es : Fin m → ℝ

/-- `es_weight` after the QP, lines 1522-1526; `dr` is `dr_weight`. -/
noncomputable def spalEs (K : α → α → ℝ) (lab : Fin a → α) (u : List α) (lambda : ℝ) (theta : Fin a → ℝ) (dr : Fin u.length → ℝ) (j : Fin u.length) : ℝ :=
  easiness lambda (dr j * worst ((theta ᵥ* rowsOf K lab u) j))

/-- `validind`, lines 1540-1544: the positions with a weight above 0.001, or that of the largest weight. -/
noncomputable def validInd (argsort : List ℝ → List Nat) {m : ℕ} (mix : Fin m → ℝ) : List (Fin m) :=
  let v := (List.finRange m).filter fun j => decide (1 / 1000 < mix j)
  if v.isEmpty then ((argsort (List.ofFn mix)).reverse.take 1).filterMap fun i => if h : i < m then some ⟨i, h⟩ else none else v

/-- The ADMM loop with the weights `mix`, lines 1545-1582. -/
noncomputable def spalTrain (argsort : List ℝ → List Nat) (pinv : Matrix (Fin a) (Fin a) ℝ → Matrix (Fin a) (Fin a) ℝ) (K : α → α → ℝ) (gamma rho : ℝ) (n : ℕ) (lab : Fin a → α) (y : α → ℝ)
    (u : List α) (mix : Fin u.length → ℝ) (theta : Fin a → ℝ) : Fin a → ℝ :=
  let v := validInd argsort mix
  let Q := rowsOf K lab (v.map u.get)
  let w : Fin (v.map u.get).length → ℝ := fun j => mix (v.get (j.cast (List.length_map _)))
  (admmLoop Q rho (spalRound pinv (gram K lab) Q gamma rho w (fun i => y (lab i))) n (admmStart Q theta)).tau

/-- The variables after a round of SPAL's outer loop, lines 1473-1582. -/
noncomputable def spalNext (argsort : List ℝ → List Nat) (pinv : Matrix (Fin a) (Fin a) ℝ → Matrix (Fin a) (Fin a) ℝ) (qp : ∀ m, (Fin m → ℝ) → (Fin m → ℝ) → Fin m → ℝ) (K : α → α → ℝ)
    (mu gamma rho lambda : ℝ) (n : ℕ) (lab : Fin a → α) (y : α → ℝ) (u : List α) (batch : ℝ) (s : Spal a u.length) : Spal a u.length :=
  let dr := qp u.length (linearPart K lab u mu batch s.theta s.es) s.es
  let es := spalEs K lab u lambda s.theta dr
  ⟨spalTrain argsort pinv K gamma rho n lab y u (fun j => max (dr j * es j) 0) s.theta, es⟩

/-- `QueryInstanceSPAL.select`. query_labels.py lines 1417-1582. -/
noncomputable def spalSelect (argsort : List ℝ → List Nat) (pinv : Matrix (Fin a) (Fin a) ℝ → Matrix (Fin a) (Fin a) ℝ) (qp : ∀ m, (Fin m → ℝ) → (Fin m → ℝ) → Fin m → ℝ) (K : α → α → ℝ)
    (mu gamma rho lambda : ℝ) (n : ℕ) (lab : Fin a → α) (y : α → ℝ) (u : Coll α) (batch : Int) (fuel : ℕ) : Option (Except PyErr (List α)) :=
  select argsort u batch
    (fun s : Spal a u.items.length =>
      let dr := qp u.items.length (linearPart K lab u.items mu batch s.theta s.es) s.es
      List.ofFn fun j => dr j * spalEs K lab u.items lambda s.theta dr j)
    (fun s _ => spalNext argsort pinv qp K mu gamma rho lambda n lab y u.items batch s)
    ⟨initial (gram K lab) gamma fun i => y (lab i), fun _ => 1⟩ fuel

/-- `unique_labels(self.y)`: the classes in increasing order, lines 1088 and 1358. -/
def classes {N : ℕ} (y : Fin N → Int) : List Int := (List.ofFn y).dedup.insertionSort (· ≤ ·)

/-- `self.y` after the constructor, lines 1087-1095 and 1357-1365. -/
def stored {N : ℕ} (y : Fin N → Int) : Except PyErr (Fin N → ℝ) :=
  match recode (classes y) (List.ofFn y) with
  | .error e => .error e
  | .ok l => .ok fun i => ((l.getD i 0 : Int) : ℝ)

/-- The same with an array of booleans: what is assigned to it becomes a boolean (`-1` becomes `True`), and counts as 1 in `dot`. Lines 1094-1095 and 1364-1365. -/
def storedBool {N : ℕ} (y : Fin N → Bool) : Except PyErr (Fin N → ℝ) :=
  if (∃ i, y i = true) ∧ ∃ i, y i = false then
    .ok fun i => if (if y i then decide ((-1 : Int) ≠ 0) else decide ((1 : Int) ≠ 0)) then 1 else 0
  else .error .valueError

/-- The constructor of BMDR with these labels and `select`. query_labels.py lines 1076-1285. -/
noncomputable def bmdr {N : ℕ} (argsort : List ℝ → List Nat) (pinv : Matrix (Fin a) (Fin a) ℝ → Matrix (Fin a) (Fin a) ℝ) (qp : ∀ m, (Fin m → ℝ) → Fin m → ℝ) (K : Fin N → Fin N → ℝ)
    (beta gamma rho : ℝ) (n : ℕ) (lab : Fin a → Fin N) (y : Except PyErr (Fin N → ℝ)) (u : Coll (Fin N)) (batch : Int) (fuel : ℕ) : Option (Except PyErr (List (Fin N))) :=
  match y with
  | .error e => some (.error e)
  | .ok y => bmdrSelect argsort pinv qp K beta gamma rho n lab y u batch fuel

/-- The constructor of SPAL with these labels and `select`. query_labels.py lines 1346-1582. -/
noncomputable def spal {N : ℕ} (argsort : List ℝ → List Nat) (pinv : Matrix (Fin a) (Fin a) ℝ → Matrix (Fin a) (Fin a) ℝ) (qp : ∀ m, (Fin m → ℝ) → (Fin m → ℝ) → Fin m → ℝ)
    (K : Fin N → Fin N → ℝ) (mu gamma rho lambda : ℝ) (n : ℕ) (lab : Fin a → Fin N) (y : Except PyErr (Fin N → ℝ)) (u : Coll (Fin N)) (batch : Int) (fuel : ℕ) :
    Option (Except PyErr (List (Fin N))) :=
  match y with
  | .error e => some (.error e)
  | .ok y => spalSelect argsort pinv qp K mu gamma rho lambda n lab y u batch fuel

end Alipy.Bmdr

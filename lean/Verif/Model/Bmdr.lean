import Verif.Model.Select
import Mathlib.LinearAlgebra.Matrix.NonsingularInverse
import Mathlib.Analysis.SpecialFunctions.Pow.Real
/-!
# `QueryInstanceBMDR` and `QueryInstanceSPAL`: `alipy/query_strategy/query_labels.py`, lines 1020-1285 and 1288-1582

Real numbers instead of floats. `ι` are the positions of the labelled, `υ` of the unlabelled examples, `κ` those of the columns used in the ADMM loop.
The QP solver (cvxpy) and `np.linalg.pinv` are parameters, and so is the test for convergence of the ADMM loop. That SPAL never changes `_lambda`, in spite of `lambda_pace`, is not modelled.
-/
namespace Alipy.Bmdr
open Alipy Alipy.Select Matrix

/-! ## The loop of `select` -/
section Loop
variable {α K σ : Type} [DecidableEq α]

/-- `set(a) == set(b)`. Lines 1249 and 1531. -/
def sameSet (a b : List α) : Bool := a.all (fun x => decide (x ∈ b)) && b.all (fun x => decide (x ∈ a))

/-- The loop `while 1`, lines 1192-1285 and 1470-1582: `weights s` are the weights computed from the state `s` (solution of the QP, for SPAL times the easiness), `next` the
state after the ADMM loop. `iter` is `iter_round` before the round. `none`: not ended within `fuel` rounds. -/
def rounds (argsort : List K → List Nat) (u : List α) (batch : Int) (weights : σ → List K) (next : σ → List α → σ) : Nat → Nat → List α → σ → Option (Except PyErr (List α))
  | 0, _, _, _ => none
  | fuel + 1, iter, last, s =>
    match nlargestarg (argsort (weights s)) batch with
    | .error e => some (.error e)
    | .ok ps =>
      match pickAll u (ps.map (fun i : Nat => (i : Int))) with
      | .error e => some (.error e)
      | .ok sel => if sameSet last sel || decide (15 < iter + 1) then some (.ok sel) else rounds argsort u batch weights next fuel (iter + 1) sel (next s sel)

/-- `select`, lines 1167-1173 and 1443-1449 and the loop. -/
def select (argsort : List K → List Nat) (u : Coll α) (batch : Int) (weights : σ → List K) (next : σ → List α → σ) (s : σ) (fuel : Nat) : Option (Except PyErr (List α)) :=
  if batch ≤ 0 then some (.error .assertionError)
  else if (u.items.length : Int) ≤ batch then some (.ok u.items)
  else rounds argsort u.items batch weights next fuel 0 [] s

end Loop

/-! ## The labels -/

/-- The two classes are recoded unless they are 1 and -1, lines 1088-1095 and 1358-1365: `ul` is the sorted list of the classes. ValueError unless there are two. -/
def recode (ul : List Int) (y : List Int) : Except PyErr (List Int) :=
  match ul with
  | [a, b] => if (a = 1 ∧ b = -1) ∨ (a = -1 ∧ b = 1) then .ok y else .ok (y.map (fun v => if v = b then -1 else if v = a then 1 else v))
  | _ => .error .valueError

/-! ## The numerical steps -/
section Steps
variable {ι υ κ : Type} [Fintype ι] [Fintype υ] [Fintype κ] [DecidableEq ι]

/-- Lines 1189 and 1465: `np.linalg.inv(KLL + gamma * np.eye(L_len)).dot(y[label_index])`. -/
noncomputable def initial (KLL : Matrix ι ι ℝ) (gamma : ℝ) (y : ι → ℝ) : ι → ℝ := (KLL + gamma • (1 : Matrix ι ι ℝ))⁻¹ *ᵥ y

/-- Lines 1198-1199 and 1476-1477: the worst loss for a prediction. -/
noncomputable def worst (p : ℝ) : ℝ := p * p + 2 * |p|

/-- The objective of the QP, lines 1197-1206 and 1475-1483: `0.5 * quad_form(x, P) + q.T @ x` with `P = 0.5 * beta * KUU`. `es` is `es_weight` (1 in BMDR). -/
noncomputable def objective (beta : ℝ) (batch : ℝ) (KLU : Matrix ι υ ℝ) (KUU : Matrix υ υ ℝ) (tau : ι → ℝ) (es : υ → ℝ) (x : υ → ℝ) : ℝ :=
  let N : ℝ := Fintype.card ι + Fintype.card υ
  let pred := tau ᵥ* KLU
  let q := fun j => beta * ((Fintype.card υ - batch) / N * ∑ i, KLU i j - (Fintype.card ι + batch) / N * ∑ i, KUU i j) + es j * worst (pred j)
  1 / 2 * (x ⬝ᵥ ((1 / 2 * beta) • KUU) *ᵥ x) + q ⬝ᵥ x

/-- The matrix of BMDR's tau update, line 1262. -/
noncomputable def admmMat (KLL : Matrix ι ι ℝ) (KLQ : Matrix ι κ ℝ) (gamma rho : ℝ) : Matrix ι ι ℝ := KLL * KLL + (rho / 2) • (KLQ * KLQᵀ) + gamma • KLL

/-- The right-hand side of BMDR's tau update, line 1263. -/
noncomputable def admmRhs (KLL : Matrix ι ι ℝ) (KLQ : Matrix ι κ ℝ) (rho : ℝ) (y : ι → ℝ) (z delta : κ → ℝ) : ι → ℝ :=
  y ᵥ* KLL + (1 / 2 : ℝ) • (delta ᵥ* KLQᵀ) + (rho / 2) • (z ᵥ* KLQᵀ)

/-- BMDR's tau update, line 1264. -/
noncomputable def tauStep (pinv : Matrix ι ι ℝ → Matrix ι ι ℝ) (KLL : Matrix ι ι ℝ) (KLQ : Matrix ι κ ℝ) (gamma rho : ℝ) (y : ι → ℝ) (z delta : κ → ℝ) : ι → ℝ :=
  pinv (admmMat KLL KLQ gamma rho) *ᵥ admmRhs KLL KLQ rho y z delta

/-- BMDR's z update, lines 1268-1274, one entry; `t` is the entry of `tau.dot(KLQ)`. -/
noncomputable def zStep (rho t delta : ℝ) : ℝ :=
  let v := (rho * t - delta) / (rho + 2)
  let ita := 2 / (rho + 2)
  (if v < 0 then -1 else 1) * max (|v| - ita) 0

/-- The update of the dual variable, lines 1277 and 1573. -/
noncomputable def deltaStep (rho t z delta : ℝ) : ℝ := delta + rho * (z - t)

/-- SPAL's matrix, line 1551. -/
noncomputable def spalMat (KLL : Matrix ι ι ℝ) (V : Matrix ι κ ℝ) (gamma rho : ℝ) : Matrix ι ι ℝ := (2 : ℝ) • (KLL * KLL) + rho • (V * Vᵀ) + (2 * gamma) • KLL

/-- SPAL's right-hand side, lines 1553-1554 and 1560. -/
noncomputable def spalRhs (KLL : Matrix ι ι ℝ) (V : Matrix ι κ ℝ) (rho : ℝ) (y : ι → ℝ) (z delta : κ → ℝ) : ι → ℝ := (rho • V) *ᵥ z + V *ᵥ delta + (2 : ℝ) • (KLL *ᵥ y)

/-- SPAL's theta update, line 1561. -/
noncomputable def thetaStep (pinv : Matrix ι ι ℝ → Matrix ι ι ℝ) (KLL : Matrix ι ι ℝ) (V : Matrix ι κ ℝ) (gamma rho : ℝ) (y : ι → ℝ) (z delta : κ → ℝ) : ι → ℝ :=
  pinv (spalMat KLL V gamma rho) *ᵥ spalRhs KLL V rho y z delta

/-- SPAL's z update, lines 1555-1556 and 1565-1570, one entry; `w` is the weight of the example, `t` the entry of `theta.dot(vKlu)`. -/
noncomputable def spalZStep (rho w t delta : ℝ) : ℝ :=
  let kdenom := Real.sqrt (w + rho / 2)
  let ci := w / kdenom
  let vi := (rho * t - delta) / (2 * kdenom)
  (if vi < 0 then -1 else if vi = 0 then 0 else 1) * max (|vi| - ci) 0 / kdenom

/-- SPAL's easiness weight, lines 1522-1526, one entry. -/
noncomputable def easiness (lambda loss : ℝ) : ℝ := if loss < lambda then 1 - loss / lambda else 0

end Steps

end Alipy.Bmdr

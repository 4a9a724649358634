import Verif.Model.Completion
import Mathlib.Data.Matrix.Mul
import Mathlib.Data.Matrix.ColumnRowPartitioned
import Mathlib.Analysis.SpecialFunctions.Pow.Real
import Mathlib.Analysis.SpecialFunctions.Sqrt

/-! # The iteration of supervised matrix completion: `_svd_threshold` and `AFASMC_mask_mc` of `alipy/query_strategy/query_features.py` (lines 43-70 and 133-263)

Exact arithmetic over the real numbers. The examples have the index type `m`, the features `n`. `np.linalg.eig` and `np.linalg.pinv` are parameters. The loops around the
steps, with what they return, are in Model/Completion.lean. -/
namespace Alipy.Afasmc
open Matrix Alipy.Features

variable {m n : Type} [Fintype m] [Fintype n] [DecidableEq n]

/-- Lines 43-70. `eig` is `np.linalg.eig`, with the eigenvectors as columns; the sorting of lines 52-54 only renames them. An exception of `np.linalg.eig` (which does not
happen for a symmetric matrix in exact arithmetic) is not modelled. -/
noncomputable def svdThreshold (eig : Matrix n n ℝ → (n → ℝ) × Matrix n n ℝ) (M : Matrix m n ℝ) (tau : ℝ) : Matrix m n ℝ × ℝ :=
  let D0 := (eig (Mᵀ * M)).1
  let V := (eig (Mᵀ * M)).2
  let D1 : n → ℝ := fun i => √(if D0 i < 0 then 0 else D0 i)
  let D2 : n → ℝ := fun i => if D1 i ≠ 0 then 1 / D1 i else D1 i
  let D : n → ℝ := fun i => max 0 (D1 i - tau)
  (M * ((V * diagonal D2) * (diagonal D * Vᵀ)), ∑ i, D i)

/-- What the steps of the inner loop read but do not change: `X_obr` (lines 184-185), the mask, `y`, `w` and `b` (lines 199-202), `lambda1`, and `lambda2` after line 187. -/
structure Prob (m n : Type) where
  Xo : Matrix m n ℝ
  mask : Matrix m n ℝ
  y : m → ℝ
  w : n → ℝ
  b : ℝ
  l1 : ℝ
  l2 : ℝ

/-- Lines 199-202: the weights and the intercept. `X_extend` is `X_obr` with a column of ones. -/
def weights (pinv : Matrix (n ⊕ Unit) (n ⊕ Unit) ℝ → Matrix (n ⊕ Unit) (n ⊕ Unit) ℝ) (Xo : Matrix m n ℝ) (y : m → ℝ) : (n → ℝ) × ℝ :=
  let X : Matrix m (n ⊕ Unit) ℝ := fromCols Xo (fun _ _ => 1)
  let W := (pinv (Xᵀ * X) * Xᵀ) *ᵥ y
  (fun j => W (.inl j), W (.inr ()))

/-- The problem of a round, lines 184-202. `X_obr` does not change between the rounds. -/
noncomputable def prob (pinv : Matrix (n ⊕ Unit) (n ⊕ Unit) ℝ → Matrix (n ⊕ Unit) (n ⊕ Unit) ℝ) (X mask : Matrix m n ℝ) (y : m → ℝ) (lambda1 lambda2 : ℝ) : Prob m n :=
  let Xo : Matrix m n ℝ := fun i j => mask i j * X i j
  ⟨Xo, mask, y, (weights pinv Xo y).1, (weights pinv Xo y).2, lambda1, lambda2 / Fintype.card m⟩

/-- The variables of the loop: `Z0`, `Z1`, `ineqLtemp0`, `ineqLtemp1`, `theta0`, `theta1`, `L`. Lines 188-194. -/
structure St (m n : Type) where
  Z0 : Matrix m n ℝ
  Z1 : Matrix m n ℝ
  P0 : Matrix m n ℝ
  P1 : Matrix m n ℝ
  th0 : ℝ
  th1 : ℝ
  L : ℝ

/-- Lines 188-194. -/
def St.init : St m n := ⟨0, 0, 0, 0, 1, 1, 2⟩

/-- `Y.dot(w) + b - y`. Lines 210, 218 and 221. -/
def residual (p : Prob m n) (Z : Matrix m n ℝ) : m → ℝ := fun i => (Z *ᵥ p.w) i + p.b - p.y i

/-- Line 207. -/
noncomputable def St.Y (s : St m n) : Matrix m n ℝ := s.Z1 + (s.th1 * (1 / s.th0 - 1)) • (s.Z1 - s.Z0)

/-- `svd_obj_temp_temp`, lines 208-209. -/
noncomputable def St.gradPart (p : Prob m n) (s : St m n) : Matrix m n ℝ :=
  (s.th1 * (1 / s.th0 - 1) + 1) • s.P1 - (s.th1 * (1 / s.th0 - 1)) • s.P0 - p.Xo

/-- `svd_obj_temp`, line 210. -/
noncomputable def St.grad (p : Prob m n) (s : St m n) : Matrix m n ℝ := s.gradPart p + (2 * p.l2) • vecMulVec (residual p s.Y) p.w

/-- `a.flatten().dot(b.flatten())`. Lines 221-223. -/
def dotAll (A B : Matrix m n ℝ) : ℝ := ∑ i, ∑ j, A i j * B i j

/-- `Z1 * obrT`, lines 217 and 230. -/
def masked (p : Prob m n) (Z : Matrix m n ℝ) : Matrix m n ℝ := fun i j => Z i j * p.mask i j

/-- `ineqL`, lines 218 and 231. -/
noncomputable def ineqL (p : Prob m n) (Z : Matrix m n ℝ) : ℝ :=
  √(∑ i, ∑ j, (masked p Z i j - p.Xo i j) ^ 2) ^ 2 / 2 + (∑ i, residual p Z i ^ 2) * p.l2

/-- `ineqRtemp`, lines 220-222. -/
noncomputable def ineqRtemp (p : Prob m n) (s : St m n) : ℝ :=
  (∑ i, ∑ j, s.gradPart p i j ^ 2) / 2 + (∑ i, residual p s.Y i ^ 2) * p.l2 - dotAll (s.grad p) s.Y

/-- `ineqR`, lines 223 and 232. -/
noncomputable def ineqR (p : Prob m n) (s : St m n) (L : ℝ) (Z : Matrix m n ℝ) : ℝ :=
  ineqRtemp p s + dotAll (s.grad p) Z + L / 2 * ∑ i, ∑ j, (Z i j - s.Y i j) ^ 2

/-- A trial with the step size `1 / L`, lines 211-213 and 227-228. -/
noncomputable def trial (eig : Matrix n n ℝ → (n → ℝ) × Matrix n n ℝ) (p : Prob m n) (s : St m n) (L : ℝ) : Matrix m n ℝ × ℝ :=
  svdThreshold eig (s.Y - (1 / L) • s.grad p) (p.l1 / L)

open Classical in
/-- The trials, lines 211-232: `L` is doubled until `ineqL <= ineqR`, at most `fuel` times (none, if that does not suffice). -/
noncomputable def search (eig : Matrix n n ℝ → (n → ℝ) × Matrix n n ℝ) (p : Prob m n) (s : St m n) : Nat → ℝ → Option (ℝ × Matrix m n ℝ × ℝ)
  | 0, L => if ineqL p (trial eig p s L).1 > ineqR p s L (trial eig p s L).1 then none else some (L, trial eig p s L)
  | fuel + 1, L => if ineqL p (trial eig p s L).1 > ineqR p s L (trial eig p s L).1 then search eig p s fuel (L * 2) else some (L, trial eig p s L)

/-- A step of the inner loop, lines 207-237, with the value of `convergence[k]`. -/
noncomputable def step (eig : Matrix n n ℝ → (n → ℝ) × Matrix n n ℝ) (p : Prob m n) (fuel : Nat) (s : St m n) : Option (St m n × ℝ) :=
  match search eig p s fuel s.L with
  | none => none
  | some (L, Z, tn) =>
    some (⟨s.Z1, Z, s.P1, masked p Z, s.th1, (√(s.th1 ^ 4 + 4 * s.th1 ^ 2) - s.th1 ^ 2) / 2, L⟩, ineqL p Z + p.l1 * tn)

/-- The states and the objectives of a run of the inner steps, over all rounds (lines 197-237) -/
structure Run (eig : Matrix n n ℝ → (n → ℝ) × Matrix n n ℝ) (p : Prob m n) (fuel : Nat) (s : Nat → St m n) (c : Nat → ℝ) : Prop where
  zero : s 0 = St.init
  succ : ∀ q, step eig p fuel (s q) = some (s (q + 1), c q)

/-- `Z1` and the objective after step number `q + 1` of all steps, given the states `s` and objectives `c` of a run. Lines 213, 228 and 237. -/
def iterate (s : Nat → St m n) (c : Nat → ℝ) (q : Nat) : Matrix m n ℝ × ℝ := ((s (q + 1)).Z1, c q)

/-- How many steps have been made before round `i` (lines 197-261): the variables keep their values from round to round. -/
noncomputable def start (s : Nat → St m n) (c : Nat → ℝ) (maxIn : Nat) : Nat → Nat
  | 0 => 0
  | i + 1 =>
    match inner (fun k => iterate s c (start s c maxIn i + k)) maxIn with
    | none => start s c maxIn i
    | some (_, k) => start s c maxIn i + k + 1

/-- `Xmc`, lines 188-261, by the loops of Model/Completion.lean. -/
noncomputable def xmc (s : Nat → St m n) (c : Nat → ℝ) (maxIn maxOut : Nat) : Except PyErr (Matrix m n ℝ) :=
  outer (fun i k => iterate s c (start s c maxIn i + k)) maxIn maxOut

end Alipy.Afasmc

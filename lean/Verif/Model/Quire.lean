import Mathlib.LinearAlgebra.Matrix.NonsingularInverse
import Mathlib.Data.Real.Basic
/-!
# `QueryInstanceQUIRE`: `alipy/query_strategy/query_labels.py`, lines 716-883

Numbers are reals. There are `n + 1` training examples; `lab` and `unl` are the lists `Lindex` and `Uindex` of positions in the training
set (functions from the positions in the lists). The matrix indexes `iList_r` (all positions but `i`) form a subtype. A division by zero
of `L[s][s]` is not modelled; `1 / inv_Laa[i, i]` with a zero divisor is, see `eva`.
-/
namespace Alipy.Quire

variable {α : Type} {n a b : Nat}

/-- `self.L = inv(K + lambda * eye)`, query_labels.py:810 -/
noncomputable def lMat (Km : Matrix (Fin (n + 1)) (Fin (n + 1)) ℝ) (lam : ℝ) : Matrix (Fin (n + 1)) (Fin (n + 1)) ℝ := (Km + lam • 1)⁻¹

/-- `inv_Laa`, query_labels.py:849-853 -/
noncomputable def invLaa (Km : Matrix (Fin (n + 1)) (Fin (n + 1)) ℝ) (lam : ℝ) (lab : Fin a → Fin (n + 1)) (unl : Fin b → Fin (n + 1)) :
    Matrix (Fin b) (Fin b) ℝ :=
  (lam • 1 + Km.submatrix unl unl) - Km.submatrix unl lab * (lam • (1 : Matrix (Fin a) (Fin a) ℝ))⁻¹ * Km.submatrix lab unl

/-- `inv_Luu`, query_labels.py:864-865: `np.dot` of two one-dimensional arrays is a number, which is subtracted from every entry. -/
noncomputable def invLuu (M : Matrix (Fin b) (Fin b) ℝ) (i : Fin b) : Matrix {k : Fin b // k ≠ i} {k : Fin b // k ≠ i} ℝ :=
  Matrix.of fun j k => M j k - 1 / M i i * ∑ t : {k : Fin b // k ≠ i}, M t i * M t i

/-- `eva`, query_labels.py:866-878. `none`: the value is infinite or not a number, since `inv_Laa[i, i]` is zero (there are labelled and
other unlabelled examples, so `inv_Luu` is infinite or NaN throughout, and so are all products and sums with it). -/
noncomputable def eva (Km : Matrix (Fin (n + 1)) (Fin (n + 1)) ℝ) (lam : ℝ) (lab : Fin a → Fin (n + 1)) (unl : Fin b → Fin (n + 1))
    (y : Fin (n + 1) → ℝ) (i : Fin b) : Option ℝ :=
  let L := lMat Km lam
  let M := invLaa Km lam lab unl
  let s := unl i
  let tmp := ∑ j : Fin a, (L s (lab j) - ∑ k : {k : Fin b // k ≠ i}, (∑ t : {k : Fin b // k ≠ i}, L s (unl t) * invLuu M i t k) *
    L (unl k) (lab j)) * y (lab j)
  if M i i = 0 ∧ a ≠ 0 then none
  else some (L s s - (L.submatrix unl unl).det / L s s + 2 * |tmp|)

open Classical in
/-- One pass of the loop, query_labels.py:880-882; `none` stands for `query_index = -1`, `min_eva = inf`. -/
noncomputable def step {β : Type} (ev : β → Option ℝ) (best : Option (β × ℝ)) (i : β) : Option (β × ℝ) :=
  match ev i, best with
  | none, best => best
  | some e, none => some (i, e)
  | some e, some (j, m) => if e < m then some (i, e) else some (j, m)

/-- `QueryInstanceQUIRE.select`, query_labels.py:812-883; `train` is `self._train_idx` and `train (Fin.last n)` is `train_idx[-1]`. -/
noncomputable def select (train : Fin (n + 1) → α) (Km : Matrix (Fin (n + 1)) (Fin (n + 1)) ℝ) (lam : ℝ) (lab : Fin a → Fin (n + 1))
    (unl : Fin b → Fin (n + 1)) (y : Fin (n + 1) → ℝ) : List α :=
  if b ≤ 1 then (List.finRange b).map (fun i => train (unl i))
  else
    match (List.finRange b).foldl (step (eva Km lam lab unl y)) none with
    | none => [train (Fin.last n)]
    | some (i, _) => [train (unl i)]

end Alipy.Quire

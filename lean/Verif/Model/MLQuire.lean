import Mathlib.LinearAlgebra.Matrix.NonsingularInverse
import Mathlib.Data.Real.Basic

/-! # The values of `QueryMultiLabelQUIRE`: `alipy/query_strategy/multi_label.py`, lines 403-499

Numbers are reals. There are `n` examples and `C` labels. The pairs of `unlabel_index` and `label_index` are given in the order of their sorted positions
(lines 465-468), as functions `U` and `S`. The set `label_index` is iterated in some order, `order`, line 469. -/
namespace Alipy.MLQuire

variable {n C a b : Nat}

/-- `self.L = np.linalg.pinv(self.K + self.lmbda * np.eye(len(X)))`, line 429. -/
noncomputable def lMat (pinv : ∀ m : Nat, Matrix (Fin m) (Fin m) ℝ → Matrix (Fin m) (Fin m) ℝ) (Km : Matrix (Fin n) (Fin n) ℝ) (lam : ℝ) : Matrix (Fin n) (Fin n) ℝ :=
  pinv n (Km + lam • 1)

/-- `get_onedim_index(order='F', ins_num=X.shape[0])` for one pair, lines 465-466. -/
def pos (p : Fin n × Fin C) : Nat := p.1.val + p.2.val * n

/-- An entry of `np.kron(A, B)`, where `B` has `m` rows and columns. Line 457. -/
def kron (m : Nat) (A B : Nat → Nat → ℝ) (k l : Nat) : ℝ := A (k / m) (l / m) * B (k % m) (l % m)

/-- An entry of an array. Lines 474-475. -/
noncomputable def entry (L : Matrix (Fin n) (Fin n) ℝ) (k l : Nat) : ℝ := if h : k < n ∧ l < n then L ⟨k, h.1⟩ ⟨l, h.2⟩ else 0

/-- `L_kr = np.kron(np.eye(self.y.shape[1]), self.L)`, line 457, at the positions of two pairs. -/
noncomputable def lkr (L : Matrix (Fin n) (Fin n) ℝ) : Matrix (Fin n × Fin C) (Fin n × Fin C) ℝ :=
  Matrix.of fun p q => kron n (fun k l => if k = l then 1 else 0) (entry L) (pos p) (pos q)

/-- `invLrr`, lines 487-488: `b` has one dimension, so `b.T.dot(b)` is a number, which is subtracted from every entry. -/
noncomputable def invLrr (LL : Matrix (Fin b) (Fin b) ℝ) (i : Fin b) : Matrix {k : Fin b // k ≠ i} {k : Fin b // k ≠ i} ℝ :=
  Matrix.of fun j k => LL j k - (∑ t : {k : Fin b // k ≠ i}, -LL i t * -LL i t) / LL i i

/-- `YsLsu`, lines 475 and 479. -/
noncomputable def ysLsu (L : Matrix (Fin n) (Fin n) ℝ) (S : Fin a → Fin n × Fin C) (U : Fin b → Fin n × Fin C) (Ys : Fin a → ℝ) (k : Fin b) : ℝ :=
  ∑ j, Ys j * lkr L (S j) (U k)

/-- `vals[i]`, lines 480-495; `fmax` of two numbers. -/
noncomputable def value (pinv : ∀ m : Nat, Matrix (Fin m) (Fin m) ℝ → Matrix (Fin m) (Fin m) ℝ) (L : Matrix (Fin n) (Fin n) ℝ) (S : Fin a → Fin n × Fin C)
    (U : Fin b → Fin n × Fin C) (Ys : Fin a → ℝ) (i : Fin b) : ℝ :=
  let Luu := (lkr L).submatrix U U
  let R := invLrr (pinv b Luu) i
  let vt1 : {k : Fin b // k ≠ i} → ℝ := fun k => ysLsu L S U Ys k
  let lqr : {k : Fin b // k ≠ i} → ℝ := fun k => Luu i k
  let vt2 := 2 * ysLsu L S U Ys i
  let tmp1 := vt2 - Matrix.vecMul (vt1 + lqr) R ⬝ᵥ (vt1 + lqr)
  let tmp2 := -vt2 - Matrix.vecMul (vt1 - lqr) R ⬝ᵥ (vt1 - lqr)
  max (Luu i i + tmp1) (Luu i i + tmp2)

/-- The labels as line 469 lists them, and the values: `order j` is the position, among the sorted ones, of the pair that comes at place `j` of the iteration. Lines 469-495. -/
noncomputable def vals (pinv : ∀ m : Nat, Matrix (Fin m) (Fin m) ℝ → Matrix (Fin m) (Fin m) ℝ) (L : Matrix (Fin n) (Fin n) ℝ) (y : Fin n → Fin C → ℝ)
    (S : Fin a → Fin n × Fin C) (order : Equiv.Perm (Fin a)) (U : Fin b → Fin n × Fin C) : Fin b → ℝ :=
  value pinv L S U (fun j => y (S (order j)).1 (S (order j)).2)

open Classical in
/-- Lines 497-499: the first pair with the smallest value. -/
noncomputable def select (pinv : ∀ m : Nat, Matrix (Fin m) (Fin m) ℝ → Matrix (Fin m) (Fin m) ℝ) (Km : Matrix (Fin n) (Fin n) ℝ) (lam : ℝ) (y : Fin n → Fin C → ℝ)
    (S : Fin a → Fin n × Fin C) (order : Equiv.Perm (Fin a)) (U : Fin b → Fin n × Fin C) : Option (Fin n × Fin C) :=
  let v := vals pinv (lMat pinv Km lam) y S order U
  ((List.finRange b).find? (fun i => decide (∀ j, v i ≤ v j))).map (fun i => (⟨pos (U i) % n, Nat.mod_lt _ (Nat.lt_of_le_of_lt (Nat.zero_le _) (U i).1.isLt)⟩,
    ⟨pos (U i) / n, by
      have h1 := (U i).1.isLt
      have h2 := (U i).2.isLt
      have hn : 0 < n := Nat.lt_of_le_of_lt (Nat.zero_le _) h1
      unfold pos
      rw [Nat.add_mul_div_right _ _ hn, Nat.div_eq_of_lt h1, Nat.zero_add]
      exact h2⟩))

end Alipy.MLQuire

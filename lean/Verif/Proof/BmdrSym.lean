import Verif.Model.BmdrSelect
import Verif.Spec.Classes
import Mathlib.Tactic.Linarith
import Mathlib.Tactic.FieldSimp
import Mathlib.Tactic.Ring
/-! BMDR and SPAL when the labels change their sign and the labelled examples their order. -/
set_option linter.unusedSectionVars false
namespace Alipy.Bmdr
open Alipy Alipy.Select Matrix

/-! ## The pseudo-inverse -/
section Pinv
variable {ι : Type} [Fintype ι] [DecidableEq ι]

theorem pinv_unique {A G H : Matrix ι ι ℝ} (hG : Spec.IsPseudoInverse A G) (hH : Spec.IsPseudoInverse A H) : G = H := by
  obtain ⟨g1, g2, g3, g4⟩ := hG
  obtain ⟨h1, h2, h3, h4⟩ := hH
  have e1 : A * G = A * H := by
    have : A * G = (A * H) * (A * G) := by rw [← Matrix.mul_assoc, h1]
    calc A * G = (A * G)ᵀ := g3.symm
      _ = ((A * H) * (A * G))ᵀ := by rw [← this]
      _ = (A * G)ᵀ * (A * H)ᵀ := Matrix.transpose_mul _ _
      _ = A * G * (A * H) := by rw [g3, h3]
      _ = A * H := by rw [← Matrix.mul_assoc, g1]
  have e2 : G * A = H * A := by
    have : G * A = (G * A) * (H * A) := by rw [Matrix.mul_assoc G A, ← Matrix.mul_assoc A H, h1]
    calc G * A = (G * A)ᵀ := g4.symm
      _ = ((G * A) * (H * A))ᵀ := by rw [← this]
      _ = (H * A)ᵀ * (G * A)ᵀ := Matrix.transpose_mul _ _
      _ = H * A * (G * A) := by rw [g4, h4]
      _ = H * A := by rw [Matrix.mul_assoc H A, ← Matrix.mul_assoc A G, g1]
  calc G = G * A * G := g2.symm
    _ = H * A * G := by rw [e2]
    _ = H * (A * G) := Matrix.mul_assoc _ _ _
    _ = H * (A * H) := by rw [e1]
    _ = H := by rw [← Matrix.mul_assoc, h2]

theorem pinv_submatrix {pinv : Matrix ι ι ℝ → Matrix ι ι ℝ} (h : ∀ A, Spec.IsPseudoInverse A (pinv A)) (A : Matrix ι ι ℝ) (e : Equiv.Perm ι) :
    pinv (A.submatrix e e) = (pinv A).submatrix e e := by
  refine pinv_unique (h _) ?_
  obtain ⟨g1, g2, g3, g4⟩ := h A
  unfold Spec.IsPseudoInverse
  simp only [Matrix.submatrix_mul_equiv, Matrix.transpose_submatrix, g1, g2, g3, g4, and_self]

end Pinv

/-! ## Changing the order by `e` and multiplying by `c` -/
section Move
variable {ι κ : Type} [Fintype ι] [Fintype κ] [DecidableEq ι]

def move (c : ℝ) (e : Equiv.Perm ι) (v : ι → ℝ) : ι → ℝ := fun i => c * v (e i)

theorem move_vecMul (c : ℝ) (e : Equiv.Perm ι) (v : ι → ℝ) (Q : Matrix ι κ ℝ) (j : κ) : (move c e v ᵥ* Q.submatrix e id) j = c * (v ᵥ* Q) j := by
  simp only [vecMul, dotProduct, move, submatrix_apply, id]
  rw [Finset.mul_sum, ← Equiv.sum_comp e fun i => c * (v i * Q i j)]
  exact Finset.sum_congr rfl fun i _ => by ring

theorem move_mulVec (c : ℝ) (e : Equiv.Perm ι) (v : ι → ℝ) (M : Matrix ι ι ℝ) : M.submatrix e e *ᵥ move c e v = move c e (M *ᵥ v) := by
  funext i
  simp only [mulVec, dotProduct, move, submatrix_apply]
  rw [Finset.mul_sum, ← Equiv.sum_comp e fun k => c * (M (e i) k * v k)]
  exact Finset.sum_congr rfl fun i _ => by ring

theorem initial_move (c : ℝ) (e : Equiv.Perm ι) (KLL : Matrix ι ι ℝ) (gamma : ℝ) (y : ι → ℝ) :
    initial (KLL.submatrix e e) gamma (move c e y) = move c e (initial KLL gamma y) := by
  unfold initial
  rw [← move_mulVec, ← Matrix.inv_submatrix_equiv]
  congr 2
  ext i j
  simp [Matrix.one_apply]

theorem zStep_sign {c : ℝ} (hc : c = 1 ∨ c = -1) {rho : ℝ} (hr : 0 < rho) (t delta : ℝ) : zStep rho (c * t) (c * delta) = c * zStep rho t delta := by
  rcases hc with rfl | rfl
  · simp
  · unfold zStep
    have e : (rho * (-1 * t) - -1 * delta) / (rho + 2) = -((rho * t - delta) / (rho + 2)) := by ring
    simp only [e, abs_neg]
    set v := (rho * t - delta) / (rho + 2)
    rcases lt_trichotomy v 0 with h | h | h
    · rw [if_neg (by linarith), if_pos h]; ring
    · have h2 : 0 ≤ 2 / (rho + 2) := by positivity
      have : max (|v| - 2 / (rho + 2)) 0 = 0 := by rw [h, abs_zero, max_eq_right]; linarith
      rw [this]; ring
    · rw [if_pos (by linarith), if_neg (by linarith)]; ring

theorem spalZStep_sign {c : ℝ} (hc : c = 1 ∨ c = -1) (rho w t delta : ℝ) : spalZStep rho w (c * t) (c * delta) = c * spalZStep rho w t delta := by
  rcases hc with rfl | rfl
  · simp
  · unfold spalZStep
    have e : (rho * (-1 * t) - -1 * delta) / (2 * Real.sqrt (w + rho / 2)) = -((rho * t - delta) / (2 * Real.sqrt (w + rho / 2))) := by ring
    simp only [e, abs_neg]
    set v := (rho * t - delta) / (2 * Real.sqrt (w + rho / 2))
    rcases lt_trichotomy v 0 with h | h | h
    · rw [if_neg (by linarith), if_neg (by linarith), if_pos h]; ring
    · rw [if_neg (by linarith), if_pos (by linarith), if_neg (by linarith), if_pos h]; ring
    · rw [if_pos (by linarith), if_neg (by linarith), if_neg (by linarith)]; ring

/-- The variables of the loop in the other order, with the other sign. -/
def Admm.move (c : ℝ) (e : Equiv.Perm ι) (s : Admm ι κ) : Admm ι κ := ⟨Bmdr.move c e s.tau, fun j => c * s.z j, fun j => c * s.delta j⟩

theorem admmMat_move (e : Equiv.Perm ι) (KLL : Matrix ι ι ℝ) (Q : Matrix ι κ ℝ) (gamma rho : ℝ) :
    admmMat (KLL.submatrix e e) (Q.submatrix e id) gamma rho = (admmMat KLL Q gamma rho).submatrix e e := by
  unfold admmMat
  ext i j
  simp only [Matrix.add_apply, Matrix.smul_apply, submatrix_apply, mul_apply, transpose_apply, id, smul_eq_mul]
  rw [Equiv.sum_comp e fun k => KLL (e i) k * KLL k (e j)]

theorem spalMat_move (e : Equiv.Perm ι) (KLL : Matrix ι ι ℝ) (Q : Matrix ι κ ℝ) (gamma rho : ℝ) :
    spalMat (KLL.submatrix e e) (Q.submatrix e id) gamma rho = (spalMat KLL Q gamma rho).submatrix e e := by
  unfold spalMat
  ext i j
  simp only [Matrix.add_apply, Matrix.smul_apply, submatrix_apply, mul_apply, transpose_apply, id, smul_eq_mul]
  rw [Equiv.sum_comp e fun k => KLL (e i) k * KLL k (e j)]

theorem admmRhs_move (c : ℝ) (e : Equiv.Perm ι) (KLL : Matrix ι ι ℝ) (Q : Matrix ι κ ℝ) (rho : ℝ) (y : ι → ℝ) (z delta : κ → ℝ) :
    admmRhs (KLL.submatrix e e) (Q.submatrix e id) rho (move c e y) (fun j => c * z j) (fun j => c * delta j) = move c e (admmRhs KLL Q rho y z delta) := by
  unfold admmRhs
  funext i
  have h1 : (move c e y ᵥ* KLL.submatrix e e) i = c * (y ᵥ* KLL) (e i) := by
    simp only [vecMul, dotProduct, move, submatrix_apply]
    rw [Finset.mul_sum, ← Equiv.sum_comp e fun k => c * (y k * KLL k (e i))]
    exact Finset.sum_congr rfl fun i _ => by ring
  have h2 : ∀ x : κ → ℝ, ((fun j => c * x j) ᵥ* (Q.submatrix e id)ᵀ) i = c * (x ᵥ* Qᵀ) (e i) := by
    intro x
    simp only [vecMul, dotProduct, submatrix_apply, transpose_apply, id]
    rw [Finset.mul_sum]
    exact Finset.sum_congr rfl fun i _ => by ring
  simp only [Pi.add_apply, Pi.smul_apply, smul_eq_mul, h1, h2, move]
  ring

theorem spalRhs_move (c : ℝ) (e : Equiv.Perm ι) (KLL : Matrix ι ι ℝ) (Q : Matrix ι κ ℝ) (rho : ℝ) (y : ι → ℝ) (z delta : κ → ℝ) :
    spalRhs (KLL.submatrix e e) (Q.submatrix e id) rho (move c e y) (fun j => c * z j) (fun j => c * delta j) = move c e (spalRhs KLL Q rho y z delta) := by
  unfold spalRhs
  rw [move_mulVec]
  funext i
  simp only [Pi.add_apply, Pi.smul_apply, smul_eq_mul, move, mulVec, dotProduct, submatrix_apply, Matrix.smul_apply, id]
  have h : ∀ (r : ℝ) (x : κ → ℝ), ∑ j, r * Q (e i) j * (c * x j) = c * ∑ j, r * Q (e i) j * x j := by
    intro r x
    rw [Finset.mul_sum]
    exact Finset.sum_congr rfl fun i _ => by ring
  have h1 := h 1 delta
  simp only [one_mul] at h1
  rw [h, h1]
  ring

theorem bmdrRound_move {c : ℝ} (hc : c = 1 ∨ c = -1) (e : Equiv.Perm ι) {pinv : Matrix ι ι ℝ → Matrix ι ι ℝ}
    (hp : ∀ A : Matrix ι ι ℝ, pinv (A.submatrix e e) = (pinv A).submatrix e e) (KLL : Matrix ι ι ℝ) (Q : Matrix ι κ ℝ) (gamma : ℝ) {rho : ℝ} (hr : 0 < rho) (y : ι → ℝ) (s : Admm ι κ) :
    bmdrRound pinv (KLL.submatrix e e) (Q.submatrix e id) gamma rho (move c e y) (s.move c e) = (bmdrRound pinv KLL Q gamma rho y s).move c e := by
  have ht : tauStep pinv (KLL.submatrix e e) (Q.submatrix e id) gamma rho (move c e y) (s.move c e).z (s.move c e).delta = move c e (tauStep pinv KLL Q gamma rho y s.z s.delta) := by
    unfold tauStep
    rw [admmMat_move, hp]
    show _ *ᵥ admmRhs _ _ _ _ (fun j => c * s.z j) (fun j => c * s.delta j) = _
    rw [admmRhs_move, move_mulVec]
  unfold bmdrRound
  simp only [ht, move_vecMul]
  show Admm.mk _ _ _ = Admm.mk _ _ _
  have hz : ∀ j, zStep rho (c * (tauStep pinv KLL Q gamma rho y s.z s.delta ᵥ* Q) j) ((s.move c e).delta j) = c * zStep rho ((tauStep pinv KLL Q gamma rho y s.z s.delta ᵥ* Q) j) (s.delta j) :=
    fun j => zStep_sign hc hr _ _
  simp only [hz]
  congr 1
  funext j
  show c * s.delta j + rho * (c * _ - c * _) = c * (s.delta j + rho * (_ - _))
  ring

theorem spalRound_move {c : ℝ} (hc : c = 1 ∨ c = -1) (e : Equiv.Perm ι) {pinv : Matrix ι ι ℝ → Matrix ι ι ℝ}
    (hp : ∀ A : Matrix ι ι ℝ, pinv (A.submatrix e e) = (pinv A).submatrix e e) (KLL : Matrix ι ι ℝ) (Q : Matrix ι κ ℝ) (gamma rho : ℝ) (w : κ → ℝ) (y : ι → ℝ) (s : Admm ι κ) :
    spalRound pinv (KLL.submatrix e e) (Q.submatrix e id) gamma rho w (move c e y) (s.move c e) = (spalRound pinv KLL Q gamma rho w y s).move c e := by
  have ht : thetaStep pinv (KLL.submatrix e e) (Q.submatrix e id) gamma rho (move c e y) (s.move c e).z (s.move c e).delta = move c e (thetaStep pinv KLL Q gamma rho y s.z s.delta) := by
    unfold thetaStep
    rw [spalMat_move, hp]
    show _ *ᵥ spalRhs _ _ _ _ (fun j => c * s.z j) (fun j => c * s.delta j) = _
    rw [spalRhs_move, move_mulVec]
  unfold spalRound
  simp only [ht, move_vecMul]
  show Admm.mk _ _ _ = Admm.mk _ _ _
  have hz : ∀ j, spalZStep rho (w j) (c * (thetaStep pinv KLL Q gamma rho y s.z s.delta ᵥ* Q) j) ((s.move c e).delta j) =
      c * spalZStep rho (w j) ((thetaStep pinv KLL Q gamma rho y s.z s.delta ᵥ* Q) j) (s.delta j) := fun j => spalZStep_sign hc _ _ _ _
  simp only [hz]
  congr 1
  funext j
  show c * s.delta j + rho * (c * _ - c * _) = c * (s.delta j + rho * (_ - _))
  ring

theorem norm2_sign {c : ℝ} (hc : c = 1 ∨ c = -1) (v : κ → ℝ) : norm2 (fun j => c * v j) = norm2 v := by
  have : ∀ j, (c * v j) ^ 2 = v j ^ 2 := fun j => by rcases hc with rfl | rfl <;> ring
  simp only [norm2, this]

theorem converged_move {c : ℝ} (hc : c = 1 ∨ c = -1) (e : Equiv.Perm ι) (Q : Matrix ι κ ℝ) (rho : ℝ) (s t : Admm ι κ) :
    converged (Q.submatrix e id) rho (s.move c e) (t.move c e) ↔ converged Q rho s t := by
  unfold converged Admm.move
  have h1 : (fun j => (move c e t.tau ᵥ* Q.submatrix e id) j - c * t.z j) = fun j => c * ((t.tau ᵥ* Q) j - t.z j) := by
    funext j; rw [move_vecMul]; ring
  have h2 : (move c e t.tau ᵥ* Q.submatrix e id) = fun j => c * (t.tau ᵥ* Q) j := by funext j; exact move_vecMul ..
  have h3 : (fun j => -rho * (c * t.z j - c * s.z j)) = fun j => c * (-rho * (t.z j - s.z j)) := by funext j; ring
  simp only [h1, h3, norm2_sign hc]
  rw [h2, norm2_sign hc]

theorem loop_move {c : ℝ} (hc : c = 1 ∨ c = -1) (e : Equiv.Perm ι) (Q : Matrix ι κ ℝ) (rho : ℝ) {round round' : Admm ι κ → Admm ι κ}
    (h : ∀ s, round' (s.move c e) = (round s).move c e) : ∀ (n : ℕ) (s : Admm ι κ), admmLoop (Q.submatrix e id) rho round' n (s.move c e) = (admmLoop Q rho round n s).move c e := by
  intro n
  induction n with
  | zero => intro s; rfl
  | succ n ih =>
    intro s
    unfold admmLoop
    rw [h s]
    by_cases hcv : converged Q rho s (round s)
    · rw [if_pos hcv, if_pos ((converged_move hc e Q rho _ _).2 hcv)]
    · rw [if_neg hcv, if_neg (fun hh => hcv ((converged_move hc e Q rho _ _).1 hh)), ih]

theorem start_move (c : ℝ) (e : Equiv.Perm ι) (Q : Matrix ι κ ℝ) (tau : ι → ℝ) : admmStart (Q.submatrix e id) (move c e tau) = (admmStart Q tau).move c e := by
  unfold admmStart Admm.move
  have : (move c e tau ᵥ* Q.submatrix e id) = fun j => c * (tau ᵥ* Q) j := by funext j; exact move_vecMul ..
  simp [this]

end Move

/-! ## The outer loop -/
section Outer
variable {α K σ τ : Type} [DecidableEq α]

theorem rounds_congr {argsort : List K → List Nat} {u : List α} {batch : Int} {weights : σ → List K} {weights' : τ → List K} {next : σ → List α → σ} {next' : τ → List α → τ}
    (R : σ → τ) (hw : ∀ s, weights' (R s) = weights s) (hn : ∀ s l, next' (R s) l = R (next s l)) :
    ∀ (fuel iter : ℕ) (last : List α) (s : σ), rounds argsort u batch weights' next' fuel iter last (R s) = rounds argsort u batch weights next fuel iter last s := by
  intro fuel
  induction fuel with
  | zero => intro iter last s; rfl
  | succ fuel ih =>
    intro iter last s
    unfold rounds
    rw [hw]
    cases nlargestarg (argsort (weights s)) batch with
    | error e => rfl
    | ok ps =>
      simp only
      cases pickAll u (ps.map fun i : Nat => (i : Int)) with
      | error e => rfl
      | ok sel =>
        simp only
        rw [hn, ih]

theorem select_congr {argsort : List K → List Nat} {u : Coll α} {batch : Int} {weights : σ → List K} {weights' : τ → List K} {next : σ → List α → σ} {next' : τ → List α → τ}
    (R : σ → τ) (hw : ∀ s, weights' (R s) = weights s) (hn : ∀ s l, next' (R s) l = R (next s l)) (s : σ) (fuel : ℕ) :
    select argsort u batch weights' next' (R s) fuel = select argsort u batch weights next s fuel := by
  unfold select
  rw [rounds_congr R hw hn]

end Outer

section Whole
variable {α : Type} [DecidableEq α] {a : ℕ}

theorem worst_sign {c : ℝ} (hc : c = 1 ∨ c = -1) (p : ℝ) : worst (c * p) = worst p := by
  unfold worst
  rcases hc with rfl | rfl
  · simp
  · rw [neg_one_mul, abs_neg]; ring

theorem gram_comp (K : α → α → ℝ) (lab : Fin a → α) (e : Equiv.Perm (Fin a)) : gram K (fun i => lab (e i)) = (gram K lab).submatrix e e := rfl

theorem rowsOf_comp (K : α → α → ℝ) (lab : Fin a → α) (e : Equiv.Perm (Fin a)) (l : List α) : rowsOf K (fun i => lab (e i)) l = (rowsOf K lab l).submatrix e id := rfl

theorem linearPart_move {c : ℝ} (hc : c = 1 ∨ c = -1) (K : α → α → ℝ) (lab : Fin a → α) (e : Equiv.Perm (Fin a)) (u : List α) (beta batch : ℝ) (tau : Fin a → ℝ) (es : Fin u.length → ℝ) :
    linearPart K (fun i => lab (e i)) u beta batch (move c e tau) es = linearPart K lab u beta batch tau es := by
  funext j
  unfold linearPart
  rw [rowsOf_comp, move_vecMul, worst_sign hc, Equiv.sum_comp e fun i => K (lab i) (u.get j)]

theorem spalEs_move {c : ℝ} (hc : c = 1 ∨ c = -1) (K : α → α → ℝ) (lab : Fin a → α) (e : Equiv.Perm (Fin a)) (u : List α) (lambda : ℝ) (theta : Fin a → ℝ) (dr : Fin u.length → ℝ) :
    spalEs K (fun i => lab (e i)) u lambda (move c e theta) dr = spalEs K lab u lambda theta dr := by
  funext j
  unfold spalEs
  rw [rowsOf_comp, move_vecMul, worst_sign hc]

theorem bmdrSelect_move {c : ℝ} (hc : c = 1 ∨ c = -1) (argsort : List ℝ → List Nat) {pinv : Matrix (Fin a) (Fin a) ℝ → Matrix (Fin a) (Fin a) ℝ} (e : Equiv.Perm (Fin a))
    (hp : ∀ A : Matrix (Fin a) (Fin a) ℝ, pinv (A.submatrix e e) = (pinv A).submatrix e e) (qp : ∀ m, (Fin m → ℝ) → Fin m → ℝ) (K : α → α → ℝ) (beta gamma : ℝ) {rho : ℝ} (hr : 0 < rho)
    (n : ℕ) (lab : Fin a → α) {y y' : α → ℝ} (hy : ∀ i, y' (lab i) = c * y (lab i)) (u : Coll α) (batch : Int) (fuel : ℕ) :
    bmdrSelect argsort pinv qp K beta gamma rho n (fun i => lab (e i)) y' u batch fuel = bmdrSelect argsort pinv qp K beta gamma rho n lab y u batch fuel := by
  have hyl : (fun i => y' (lab (e i))) = move c e fun i => y (lab i) := by funext i; exact hy (e i)
  unfold bmdrSelect
  rw [hyl, gram_comp, initial_move]
  refine select_congr (move c e) (fun tau => ?_) (fun tau sel => ?_) _ fuel
  · rw [linearPart_move hc]
  · rw [rowsOf_comp, start_move, loop_move hc e _ _ (fun s => bmdrRound_move hc e hp _ _ _ hr _ s)]
    rfl

def Spal.move {m : ℕ} (c : ℝ) (e : Equiv.Perm (Fin a)) (s : Spal a m) : Spal a m := ⟨Bmdr.move c e s.theta, s.es⟩

theorem spalTrain_move {c : ℝ} (hc : c = 1 ∨ c = -1) (argsort : List ℝ → List Nat) {pinv : Matrix (Fin a) (Fin a) ℝ → Matrix (Fin a) (Fin a) ℝ} (e : Equiv.Perm (Fin a))
    (hp : ∀ A : Matrix (Fin a) (Fin a) ℝ, pinv (A.submatrix e e) = (pinv A).submatrix e e) (K : α → α → ℝ) (gamma rho : ℝ)
    (n : ℕ) (lab : Fin a → α) {y y' : α → ℝ} (hy : ∀ i, y' (lab i) = c * y (lab i)) (u : List α) (mix : Fin u.length → ℝ) (theta : Fin a → ℝ) :
    spalTrain argsort pinv K gamma rho n (fun i => lab (e i)) y' u mix (move c e theta) = move c e (spalTrain argsort pinv K gamma rho n lab y u mix theta) := by
  have hyl : (fun i => y' (lab (e i))) = move c e fun i => y (lab i) := by funext i; exact hy (e i)
  unfold spalTrain
  simp only [hyl, gram_comp, rowsOf_comp, start_move]
  rw [loop_move hc e _ _ (fun s => spalRound_move hc e hp _ _ _ _ _ _ s)]
  rfl

theorem spalNext_move {c : ℝ} (hc : c = 1 ∨ c = -1) (argsort : List ℝ → List Nat) {pinv : Matrix (Fin a) (Fin a) ℝ → Matrix (Fin a) (Fin a) ℝ} (e : Equiv.Perm (Fin a))
    (hp : ∀ A : Matrix (Fin a) (Fin a) ℝ, pinv (A.submatrix e e) = (pinv A).submatrix e e) (qp : ∀ m, (Fin m → ℝ) → (Fin m → ℝ) → Fin m → ℝ) (K : α → α → ℝ) (mu gamma rho lambda : ℝ)
    (n : ℕ) (lab : Fin a → α) {y y' : α → ℝ} (hy : ∀ i, y' (lab i) = c * y (lab i)) (u : List α) (batch : ℝ) (s : Spal a u.length) :
    spalNext argsort pinv qp K mu gamma rho lambda n (fun i => lab (e i)) y' u batch (s.move c e) =
      (spalNext argsort pinv qp K mu gamma rho lambda n lab y u batch s).move c e := by
  unfold spalNext Spal.move
  simp only [linearPart_move hc, spalEs_move hc, spalTrain_move hc argsort e hp K gamma rho n lab hy]

theorem spalSelect_move {c : ℝ} (hc : c = 1 ∨ c = -1) (argsort : List ℝ → List Nat) {pinv : Matrix (Fin a) (Fin a) ℝ → Matrix (Fin a) (Fin a) ℝ} (e : Equiv.Perm (Fin a))
    (hp : ∀ A : Matrix (Fin a) (Fin a) ℝ, pinv (A.submatrix e e) = (pinv A).submatrix e e) (qp : ∀ m, (Fin m → ℝ) → (Fin m → ℝ) → Fin m → ℝ) (K : α → α → ℝ) (mu gamma rho lambda : ℝ)
    (n : ℕ) (lab : Fin a → α) {y y' : α → ℝ} (hy : ∀ i, y' (lab i) = c * y (lab i)) (u : Coll α) (batch : Int) (fuel : ℕ) :
    spalSelect argsort pinv qp K mu gamma rho lambda n (fun i => lab (e i)) y' u batch fuel = spalSelect argsort pinv qp K mu gamma rho lambda n lab y u batch fuel := by
  have hyl : (fun i => y' (lab (e i))) = move c e fun i => y (lab i) := by funext i; exact hy (e i)
  unfold spalSelect
  rw [hyl, gram_comp, initial_move]
  refine select_congr (Spal.move c e) (fun s => ?_) (fun s sel => ?_) ⟨_, _⟩ fuel
  · simp only [Spal.move, linearPart_move hc, spalEs_move hc]
  · exact spalNext_move hc argsort e hp qp K mu gamma rho lambda n lab hy u.items batch s

end Whole

end Alipy.Bmdr

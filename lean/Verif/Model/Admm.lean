import Verif.Model.Bmdr
/-!
# The ADMM loops of `QueryInstanceBMDR` and `QueryInstanceSPAL`: `alipy/query_strategy/query_labels.py`, lines 1256-1285 and 1540-1582

Real numbers instead of floats, see `Verif.Model.Bmdr` for the single steps. `κ` are the examples in the loop: the selected ones (BMDR), those with a
weight above 0.001 (SPAL).
-/
namespace Alipy.Bmdr
open Alipy Matrix

variable {ι κ : Type} [Fintype ι] [Fintype κ] [DecidableEq ι]

/-- The variables of the loop: the model (`tau`, `theta`), the auxiliary and the dual variable. query_labels.py lines 1256-1264 and 1547-1561. -/
structure Admm (ι κ : Type) where
  tau : ι → ℝ
  z : κ → ℝ
  delta : κ → ℝ

/-- One round of BMDR's loop, lines 1262-1277. -/
noncomputable def bmdrRound (pinv : Matrix ι ι ℝ → Matrix ι ι ℝ) (KLL : Matrix ι ι ℝ) (Q : Matrix ι κ ℝ) (gamma rho : ℝ) (y : ι → ℝ) (s : Admm ι κ) : Admm ι κ :=
  let tau := tauStep pinv KLL Q gamma rho y s.z s.delta
  let z := fun j => zStep rho ((tau ᵥ* Q) j) (s.delta j)
  ⟨tau, z, fun j => deltaStep rho ((tau ᵥ* Q) j) (z j) (s.delta j)⟩

/-- One round of SPAL's loop, lines 1560-1573. `w` is `mix_weight[validind]`. -/
noncomputable def spalRound (pinv : Matrix ι ι ℝ → Matrix ι ι ℝ) (KLL : Matrix ι ι ℝ) (Q : Matrix ι κ ℝ) (gamma rho : ℝ) (w : κ → ℝ) (y : ι → ℝ) (s : Admm ι κ) : Admm ι κ :=
  let tau := thetaStep pinv KLL Q gamma rho y s.z s.delta
  let z := fun j => spalZStep rho (w j) ((tau ᵥ* Q) j) (s.delta j)
  ⟨tau, z, fun j => deltaStep rho ((tau ᵥ* Q) j) (z j) (s.delta j)⟩

/-- `np.linalg.norm` of a vector. Lines 1280-1283. -/
noncomputable def norm2 (v : κ → ℝ) : ℝ := Real.sqrt (∑ j, v j ^ 2)

/-- The test for convergence, lines 1280-1285 and 1576-1582: `s` are the variables before the round, `t` those after it. `ABSTOL` is 1e-4, `RELTOL` 1e-2. -/
def converged (Q : Matrix ι κ ℝ) (rho : ℝ) (s t : Admm ι κ) : Prop :=
  norm2 (fun j => (t.tau ᵥ* Q) j - t.z j) < Real.sqrt (Fintype.card κ) * (1 / 10000) + 1 / 100 * max (norm2 t.z) (norm2 (t.tau ᵥ* Q)) ∧
  norm2 (fun j => -rho * (t.z j - s.z j)) < Real.sqrt (Fintype.card κ) * (1 / 10000) + 1 / 100 * norm2 t.delta

open Classical in
/-- The loop `for solver_iter in range(MAX_ITER)`, lines 1260-1285 and 1558-1582. -/
noncomputable def admmLoop (Q : Matrix ι κ ℝ) (rho : ℝ) (round : Admm ι κ → Admm ι κ) : Nat → Admm ι κ → Admm ι κ
  | 0, s => s
  | n + 1, s => if converged Q rho s (round s) then round s else admmLoop Q rho round n (round s)

/-- The variables before the loop, lines 1256-1258 and 1547-1548. -/
def admmStart (Q : Matrix ι κ ℝ) (tau : ι → ℝ) : Admm ι κ := ⟨tau, tau ᵥ* Q, fun _ => 0⟩

end Alipy.Bmdr

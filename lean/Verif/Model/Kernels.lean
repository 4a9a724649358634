import Verif.Model.Py
import Mathlib.Analysis.SpecialFunctions.Exp
import Mathlib.LinearAlgebra.Matrix.NonsingularInverse
/-!
# The kernel matrices of QUIRE, multi-label QUIRE, BMDR and SPAL

`alipy/query_strategy/query_labels.py` lines 786-810, 1098-1122 and 1371-1395, `alipy/query_strategy/multi_label.py` lines 406-429 and `alipy/utils/misc.py` lines 161-206 (`calc_kernel_matrix`).

Real numbers instead of floats. `n` examples with features `φ`. The kernels of `sklearn.metrics.pairwise` are modelled as they compute: squared distances from inner products, cut at zero, with a
diagonal of zeros. What the user passes is the kernel and, where given, its parameters; for a callable, what it returns for the data.
-/
namespace Alipy.Kernels
open Alipy Matrix

variable {n : ℕ} {φ : Type} [Fintype φ]

/-- `sklearn.metrics.pairwise.euclidean_distances(X, X, squared=True)`, called by `rbf_kernel`, query_labels.py line 791. -/
noncomputable def sqDistances (X : Matrix (Fin n) φ ℝ) : Matrix (Fin n) (Fin n) ℝ :=
  Matrix.of fun i j => if i = j then 0 else max (-2 * (X * Xᵀ) i j + ∑ f, X i f ^ 2 + ∑ f, X j f ^ 2) 0

/-- `rbf_kernel(X=X, Y=X, gamma=gamma)`: query_labels.py lines 791, 1104 and 1377, multi_label.py line 409, misc.py line 190. -/
noncomputable def rbf (X : Matrix (Fin n) φ ℝ) (gamma : ℝ) : Matrix (Fin n) (Fin n) ℝ := Matrix.of fun i j => Real.exp (-gamma * sqDistances X i j)

/-- `polynomial_kernel(X=X, Y=X, coef0=coef0, degree=degree, gamma=gamma)`: query_labels.py lines 793-797, 1106-1110 and 1379-1383, multi_label.py lines 411-415, misc.py lines 192-196. -/
def poly (X : Matrix (Fin n) φ ℝ) (gamma coef0 : ℝ) (degree : ℕ) : Matrix (Fin n) (Fin n) ℝ := Matrix.of fun i j => (gamma * (X * Xᵀ) i j + coef0) ^ degree

/-- `linear_kernel(X=X, Y=X)`: query_labels.py lines 799, 1112 and 1385, multi_label.py line 417, misc.py line 198. -/
def linear (X : Matrix (Fin n) φ ℝ) : Matrix (Fin n) (Fin n) ℝ := X * Xᵀ

/-- What a callable returns: an array of some shape, or another object. query_labels.py lines 801 and 805-809. -/
inductive Returned where
  | array (rows cols : ℕ) (A : Matrix (Fin rows) (Fin cols) ℝ)
  | other

/-- The argument `kernel`: one of the three names, a callable (with what it returns for the data), or another object. query_labels.py lines 789-803. -/
inductive Arg where
  | rbf | poly | linear
  | callable (r : Returned)
  | other

/-- The keyword arguments of a kernel; `none` if not given. query_labels.py lines 791-797. -/
structure Par where
  gamma : Option ℝ := none
  coef0 : Option ℝ := none
  degree : Option ℕ := none

/-- `calc_kernel_matrix`, misc.py lines 161-206, and the same branches of the constructors: query_labels.py lines 790-803, 1103-1116 and 1376-1389, multi_label.py lines 408-421. -/
noncomputable def calcMatrix (k : Arg) (p : Par) (X : Matrix (Fin n) φ ℝ) : Except PyErr Returned :=
  match k with
  | .rbf => .ok (.array n n (rbf X (p.gamma.getD 1)))
  | .poly => .ok (.array n n (poly X (p.gamma.getD 1) (p.coef0.getD 1) (p.degree.getD 3)))
  | .linear => .ok (.array n n (linear X))
  | .callable r => .ok r
  | .other => .error .notImplementedError

/-- `self.K` after the checks of the constructors: query_labels.py lines 805-809, 1118-1122 and 1391-1395, multi_label.py lines 423-427. -/
noncomputable def kernel (k : Arg) (p : Par) (X : Matrix (Fin n) φ ℝ) : Except PyErr (Matrix (Fin n) (Fin n) ℝ) :=
  match calcMatrix k p X with
  | .error e => .error e
  | .ok .other => .error .typeError
  | .ok (.array r c A) => if h : r = n ∧ c = n then .ok (A.submatrix (Fin.cast h.1.symm) (Fin.cast h.2.symm)) else .error .valueError

open Classical in
/-- `np.linalg.inv`: LinAlgError (here: another exception) for a singular matrix. query_labels.py lines 810, 1189 and 1465. -/
noncomputable def inv {m : ℕ} (A : Matrix (Fin m) (Fin m) ℝ) : Except PyErr (Matrix (Fin m) (Fin m) ℝ) := if A.det = 0 then .error .genericException else .ok A⁻¹

/-- The constructor of QUIRE: `self.K` and `self.L`; `X` are the training examples. query_labels.py lines 783-810. -/
noncomputable def quireInit (k : Arg) (p : Par) (lam : Option ℝ) (X : Matrix (Fin n) φ ℝ) : Except PyErr (Matrix (Fin n) (Fin n) ℝ × Matrix (Fin n) (Fin n) ℝ) :=
  match kernel k p X with
  | .error e => .error e
  | .ok K => match inv (K + lam.getD 1 • 1) with
    | .error e => .error e
    | .ok L => .ok (K, L)

/-- The constructor of multi-label QUIRE: `self.K` and `self.L`. multi_label.py lines 406-429. -/
noncomputable def mlQuireInit (pinv : Matrix (Fin n) (Fin n) ℝ → Matrix (Fin n) (Fin n) ℝ) (k : Arg) (p : Par) (lam : Option ℝ) (X : Matrix (Fin n) φ ℝ) :
    Except PyErr (Matrix (Fin n) (Fin n) ℝ × Matrix (Fin n) (Fin n) ℝ) :=
  match kernel k p X with
  | .error e => .error e
  | .ok K => .ok (K, pinv (K + lam.getD 1 • 1))

/-- `tau` (BMDR) or `theta` (SPAL) before the first round: query_labels.py lines 1175, 1189, 1451 and 1465. -/
noncomputable def initial {a : ℕ} (K : Matrix (Fin n) (Fin n) ℝ) (lab : Fin a → Fin n) (gamma : ℝ) (y : Fin n → ℝ) : Except PyErr (Fin a → ℝ) :=
  match inv (K.submatrix lab lab + gamma • 1) with
  | .error e => .error e
  | .ok A => .ok (A *ᵥ fun i => y (lab i))

end Alipy.Kernels

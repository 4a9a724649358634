import Verif.Model.Kernels
import Verif.Model.BmdrSelect
import Verif.Spec.Kernels
import Verif.Spec.Bmdr
import Verif.Props.Kernel
import Verif.Props.Quire
import Verif.Props.Admm
import Verif.Props.MLQuire
import Mathlib.Analysis.Convex.Function
import Mathlib.Analysis.Convex.Extrema
/-!
# C118: with a built-in kernel every matrix that is inverted is invertible and every problem that is solved is convex
-/
namespace Alipy.Kernels
open Alipy Matrix Filter Topology

variable {n : ℕ} {φ : Type} [Fintype φ]

theorem sqDistances_eq (X : Matrix (Fin n) φ ℝ) (i j : Fin n) : sqDistances X i j = Spec.sqDist (X i) (X j) := by
  have e : -2 * (X * Xᵀ) i j + ∑ f, X i f ^ 2 + ∑ f, X j f ^ 2 = Spec.sqDist (X i) (X j) := by
    simp only [Spec.sqDist, Matrix.mul_apply, Matrix.transpose_apply]
    rw [Finset.mul_sum, ← Finset.sum_add_distrib, ← Finset.sum_add_distrib]
    refine Finset.sum_congr rfl fun f _ => ?_
    ring
  unfold sqDistances
  rw [Matrix.of_apply]
  split
  · next h => subst h; simp [Spec.sqDist]
  · rw [e, max_eq_left]
    exact Finset.sum_nonneg fun f _ => sq_nonneg _

theorem cast_id (A : Matrix (Fin n) (Fin n) ℝ) (h h' : n = n) : A.submatrix (Fin.cast h) (Fin.cast h') = A := rfl

/-- **C118** (kernels): the three names give the kernels of these formulas, with `gamma = 1`, `coef0 = 1` and `degree = 3` if they are not given. -/
theorem C118_kernels (p : Par) (X : Matrix (Fin n) φ ℝ) :
    (∃ K, kernel .rbf p X = .ok K ∧ Spec.IsGram X (Spec.rbfKernel (p.gamma.getD 1)) K) ∧
    (∃ K, kernel .poly p X = .ok K ∧ Spec.IsGram X (Spec.polyKernel (p.gamma.getD 1) (p.coef0.getD 1) (p.degree.getD 3)) K) ∧
    (∃ K, kernel .linear p X = .ok K ∧ Spec.IsGram X Spec.linearKernel K) := by
  refine ⟨⟨rbf X (p.gamma.getD 1), by simp [kernel, calcMatrix], fun i j => ?_⟩, ⟨poly X (p.gamma.getD 1) (p.coef0.getD 1) (p.degree.getD 3), by simp [kernel, calcMatrix], fun i j => ?_⟩,
    ⟨linear X, by simp [kernel, calcMatrix], fun i j => ?_⟩⟩
  · simp only [rbf, Matrix.of_apply, Spec.rbfKernel, sqDistances_eq, neg_mul]
  · simp only [poly, Matrix.of_apply, Spec.polyKernel, Matrix.mul_apply, Matrix.transpose_apply]
  · simp only [linear, Spec.linearKernel, Matrix.mul_apply, Matrix.transpose_apply]

theorem C118_defaults (X : Matrix (Fin n) φ ℝ) :
    (∃ K, kernel .rbf {} X = .ok K ∧ ∀ i j, K i j = Real.exp (-Spec.sqDist (X i) (X j))) ∧
    (∃ K, kernel .poly {} X = .ok K ∧ ∀ i j, K i j = (∑ f, X i f * X j f + 1) ^ 3) := by
  obtain ⟨⟨K, h, e⟩, ⟨K', h', e'⟩, -⟩ := C118_kernels {} X
  refine ⟨⟨K, h, fun i j => ?_⟩, ⟨K', h', fun i j => ?_⟩⟩
  · rw [e]; simp [Spec.rbfKernel]
  · rw [e']; simp [Spec.polyKernel]

/-- **C118** (refused): another kernel, a callable that returns no array, or one of the wrong shape. -/
theorem C118_refused (p : Par) (X : Matrix (Fin n) φ ℝ) :
    kernel .other p X = .error .notImplementedError ∧ kernel (.callable .other) p X = .error .typeError ∧
    (∀ r c A, ¬ (r = n ∧ c = n) → kernel (.callable (.array r c A)) p X = .error .valueError) ∧
    (∀ A : Matrix (Fin n) (Fin n) ℝ, kernel (.callable (.array n n A)) p X = .ok A) := by
  refine ⟨rfl, rfl, fun r c A h => ?_, fun A => ?_⟩
  · simp only [kernel, calcMatrix]
    rw [dif_neg h]
  · simp [kernel, calcMatrix]

/-! ## Positive semidefinite -/

theorem linear_psd (X : Matrix (Fin n) φ ℝ) : (X * Xᵀ).PosSemidef := by
  simpa using posSemidef_self_mul_conjTranspose X

theorem const_psd {c : ℝ} (hc : 0 ≤ c) : (Matrix.of fun _ _ => c : Matrix (Fin n) (Fin n) ℝ).PosSemidef := by
  have := (posSemidef_vecMulVec_self_star (fun _ : Fin n => (1 : ℝ))).smul hc
  convert this using 1
  ext i j
  simp [vecMulVec]

theorem poly_psd (X : Matrix (Fin n) φ ℝ) {gamma coef0 : ℝ} (hg : 0 ≤ gamma) (hc : 0 ≤ coef0) (d : ℕ) : (poly X gamma coef0 d).PosSemidef := by
  have h : (gamma • (X * Xᵀ) + Matrix.of fun _ _ => coef0 : Matrix (Fin n) (Fin n) ℝ).PosSemidef := ((linear_psd X).smul hg).add (const_psd hc)
  have := Kernel.hadamard_pow_psd h d
  convert this using 1
  ext i j
  simp [poly]

theorem rbf_psd (X : Matrix (Fin n) φ ℝ) {gamma : ℝ} (hg : 0 ≤ gamma) : (rbf X gamma).PosSemidef := by
  rcases hg.eq_or_lt with rfl | hg
  · convert const_psd (n := n) zero_le_one using 1
    ext i j
    simp [rbf]
  · have hs : (√(1 / (2 * gamma))) ≠ 0 := by positivity
    convert Kernel.C79_psd X hs using 1
    ext i j
    rw [Kernel.C79_entry, Real.sq_sqrt (by positivity)]
    simp only [rbf, Matrix.of_apply, sqDistances_eq]
    congr 1
    field_simp

/-- The kernel is one of the three names, and its parameters are not negative. -/
def BuiltIn (k : Arg) (p : Par) : Prop :=
  match k with
  | .rbf => ∀ g ∈ p.gamma, 0 ≤ g
  | .poly => (∀ g ∈ p.gamma, 0 ≤ g) ∧ ∀ c ∈ p.coef0, 0 ≤ c
  | .linear => True
  | _ => False

theorem getD_nonneg {o : Option ℝ} (h : ∀ g ∈ o, 0 ≤ g) : 0 ≤ o.getD 1 := by
  cases o with
  | none => exact zero_le_one
  | some g => exact h g rfl

/-- **C118** (positive semidefinite): with one of the three kernels, and parameters that are not negative, the constructors get a symmetric positive semidefinite matrix from any examples. -/
theorem C118_psd {k : Arg} {p : Par} (h : BuiltIn k p) (X : Matrix (Fin n) φ ℝ) : ∃ K, kernel k p X = .ok K ∧ K.PosSemidef := by
  cases k with
  | rbf => exact ⟨rbf X (p.gamma.getD 1), by simp [kernel, calcMatrix], rbf_psd X (getD_nonneg h)⟩
  | poly => exact ⟨poly X (p.gamma.getD 1) (p.coef0.getD 1) (p.degree.getD 3), by simp [kernel, calcMatrix], poly_psd X (getD_nonneg h.1) (getD_nonneg h.2) _⟩
  | linear => exact ⟨linear X, by simp [kernel, calcMatrix], linear_psd X⟩
  | callable r => exact h.elim
  | other => exact h.elim

/-! ## QUIRE -/

theorem inv_posDef {m : ℕ} {A : Matrix (Fin m) (Fin m) ℝ} (h : A.PosDef) : inv A = .ok A⁻¹ := by
  unfold inv
  rw [if_neg h.det_pos.ne']

/-- **C118** (QUIRE): no LinAlgError; `L` is the inverse, and positive definite, and so is each of its blocks: all determinants the strategy takes and divides by are positive. -/
theorem C118_quire {k : Arg} {p : Par} (h : BuiltIn k p) {lam : Option ℝ} (hl : ∀ l ∈ lam, 0 < l) (X : Matrix (Fin n) φ ℝ) :
    ∃ K L, quireInit k p lam X = .ok (K, L) ∧ kernel k p X = .ok K ∧ (K + lam.getD 1 • 1) * L = 1 ∧ L * (K + lam.getD 1 • 1) = 1 ∧
      (∀ i, 0 < L i i) ∧ ∀ {b : ℕ} (unl : Fin b → Fin n), Function.Injective unl →
        (L.submatrix unl unl).PosDef ∧ 0 < (L.submatrix unl unl).det ∧ ∀ i, 0 < (L.submatrix unl unl)⁻¹ i i := by
  obtain ⟨K, hK, hp⟩ := C118_psd h X
  have hl' : 0 < lam.getD 1 := by
    cases lam with
    | none => exact zero_lt_one
    | some l => exact hl l rfl
  have hd := Quire.posDef_reg hp hl'
  have hu := (Matrix.isUnit_iff_isUnit_det _).1 hd.isUnit
  refine ⟨K, (K + lam.getD 1 • 1)⁻¹, ?_, hK, Matrix.mul_nonsing_inv _ hu, Matrix.nonsing_inv_mul _ hu, fun i => hd.inv.diag_pos, fun unl hi => ?_⟩
  · simp only [quireInit, hK, inv_posDef hd]
  · have hb := hd.inv.submatrix hi
    exact ⟨hb, hb.det_pos, fun i => hb.inv.diag_pos⟩

/-- **C118** (multi-label QUIRE): any generalised inverse of the regularised matrix is its inverse. -/
theorem C118_ml_quire {pinv : Matrix (Fin n) (Fin n) ℝ → Matrix (Fin n) (Fin n) ℝ} (hg : ∀ A, Spec.IsGeneralisedInverse A (pinv A)) {k : Arg} {p : Par} (h : BuiltIn k p) {lam : Option ℝ}
    (hl : ∀ l ∈ lam, 0 < l) (X : Matrix (Fin n) φ ℝ) :
    mlQuireInit pinv k p lam X = quireInit k p lam X := by
  obtain ⟨K, L, hq, hK, h1, h2, -⟩ := C118_quire h hl X
  rw [hq]
  simp only [mlQuireInit, hK]
  have := hg (K + lam.getD 1 • 1)
  unfold Spec.IsGeneralisedInverse at this
  have e : pinv (K + lam.getD 1 • 1) = L := by
    calc pinv (K + lam.getD 1 • 1) = L * ((K + lam.getD 1 • 1) * pinv (K + lam.getD 1 • 1) * (K + lam.getD 1 • 1)) * L := by
          rw [← Matrix.mul_assoc, ← Matrix.mul_assoc, h2, Matrix.one_mul, Matrix.mul_assoc, h1, Matrix.mul_one]
      _ = L := by rw [this, h2, Matrix.one_mul]
  rw [e]

/-! ## BMDR and SPAL -/

/-- **C118** (the first model of BMDR and SPAL): no LinAlgError; it solves the regularised problem. -/
theorem C118_initial {k : Arg} {p : Par} (h : BuiltIn k p) (X : Matrix (Fin n) φ ℝ) {gamma : ℝ} (hg : 0 < gamma) {a : ℕ} (lab : Fin a → Fin n) (y : Fin n → ℝ) :
    ∃ K tau, kernel k p X = .ok K ∧ initial K lab gamma y = .ok tau ∧ ∀ i, ∑ j, K (lab i) (lab j) * tau j + gamma * tau i = y (lab i) := by
  obtain ⟨K, hK, hp⟩ := C118_psd h X
  have hd := Quire.posDef_reg (hp.submatrix lab) hg
  have hu := (Matrix.isUnit_iff_isUnit_det _).1 hd.isUnit
  refine ⟨K, _, hK, by simp only [initial, inv_posDef hd]; rfl, fun i => ?_⟩
  have e : (K.submatrix lab lab + gamma • 1) *ᵥ ((K.submatrix lab lab + gamma • 1)⁻¹ *ᵥ fun i => y (lab i)) = fun i => y (lab i) := by
    rw [Matrix.mulVec_mulVec, Matrix.mul_nonsing_inv _ hu, Matrix.one_mulVec]
  generalize (K.submatrix lab lab + gamma • 1)⁻¹ *ᵥ (fun i => y (lab i)) = tau at e ⊢
  have := congrFun e i
  rw [Matrix.add_mulVec, Matrix.smul_mulVec, Matrix.one_mulVec] at this
  simpa [Matrix.mulVec, dotProduct] using this

theorem quad_expand {υ : Type} [Fintype υ] {P : Matrix υ υ ℝ} (hs : Pᵀ = P) (x y : υ → ℝ) (s t : ℝ) (hst : s + t = 1) :
    s * (x ⬝ᵥ P *ᵥ x) + t * (y ⬝ᵥ P *ᵥ y) - (s • x + t • y) ⬝ᵥ P *ᵥ (s • x + t • y) = s * t * ((x - y) ⬝ᵥ P *ᵥ (x - y)) := by
  have hc : y ⬝ᵥ P *ᵥ x = x ⬝ᵥ P *ᵥ y := by
    rw [Matrix.dotProduct_mulVec, ← Matrix.mulVec_transpose, hs, dotProduct_comm]
  obtain rfl : t = 1 - s := by linarith
  simp only [Matrix.mulVec_add, Matrix.mulVec_smul, Matrix.mulVec_sub, dotProduct_add, add_dotProduct, smul_dotProduct, dotProduct_smul, sub_dotProduct, dotProduct_sub, smul_eq_mul, hc]
  ring

/-- **C118** (the QP of BMDR and SPAL): the matrix `P` handed to the solver is positive semidefinite and the objective is convex, so that a selection that is best among those near it is best among all feasible
ones. -/
theorem C118_convex {k : Arg} {p : Par} (h : BuiltIn k p) (X : Matrix (Fin n) φ ℝ) {beta : ℝ} (hb : 0 ≤ beta) {a b : ℕ} (lab : Fin a → Fin n) (unl : Fin b → Fin n) (batch : ℝ) (tau : Fin a → ℝ) (es : Fin b → ℝ) :
    ∃ K, kernel k p X = .ok K ∧ ((1 / 2 * beta) • K.submatrix unl unl).PosSemidef ∧
      ConvexOn ℝ Set.univ (Bmdr.objective beta batch (K.submatrix lab unl) (K.submatrix unl unl) tau es) := by
  obtain ⟨K, hK, hp⟩ := C118_psd h X
  have hP : ((1 / 2 * beta) • K.submatrix unl unl).PosSemidef := (hp.submatrix unl).smul (by positivity)
  refine ⟨K, hK, hP, convex_univ, fun x _ y _ s t hs ht hst => ?_⟩
  have hsym : ((1 / 2 * beta) • K.submatrix unl unl)ᵀ = (1 / 2 * beta) • K.submatrix unl unl := by
    have := hP.isHermitian
    rwa [Matrix.IsHermitian, conjTranspose_eq_transpose_of_trivial] at this
  have e := quad_expand hsym x y s t hst
  have h0 : 0 ≤ (x - y) ⬝ᵥ ((1 / 2 * beta) • K.submatrix unl unl) *ᵥ (x - y) := by
    have := hP.dotProduct_mulVec_nonneg (x - y)
    simpa using this
  have hst' := mul_nonneg (mul_nonneg hs ht) h0
  simp only [Bmdr.objective, smul_eq_mul, dotProduct_add, dotProduct_smul]
  rw [← e] at hst'
  nlinarith

theorem C118_local_is_global {k : Arg} {p : Par} (h : BuiltIn k p) (X : Matrix (Fin n) φ ℝ) {beta : ℝ} (hb : 0 ≤ beta) {a b : ℕ} (lab : Fin a → Fin n) (unl : Fin b → Fin n) (batch : ℝ) (tau : Fin a → ℝ) (es : Fin b → ℝ)
    {feasible : Set (Fin b → ℝ)} (hf : Convex ℝ feasible) {x : Fin b → ℝ} (hx : x ∈ feasible) :
    ∃ K, kernel k p X = .ok K ∧ (IsLocalMinOn (Bmdr.objective beta batch (K.submatrix lab unl) (K.submatrix unl unl) tau es) feasible x →
      IsMinOn (Bmdr.objective beta batch (K.submatrix lab unl) (K.submatrix unl unl) tau es) feasible x) := by
  obtain ⟨K, hK, -, hc⟩ := C118_convex h X hb lab unl batch tau es
  exact ⟨K, hK, fun hl => IsMinOn.of_isLocalMinOn_of_convexOn hx hl (hc.subset (Set.subset_univ _) hf)⟩

/-- **C118** (the ADMM loop): with a built-in kernel the loops of BMDR and SPAL converge to the best model for the query (C111), whatever the data. -/
theorem C118_admm {k : Arg} {p : Par} (h : BuiltIn k p) (X : Matrix (Fin n) φ ℝ) {gamma rho : ℝ} (hg : 0 ≤ gamma) (hr : 0 < rho) {a b : ℕ} (lab : Fin a → Fin n) (sel : Fin b → Fin n)
    {pinv : Matrix (Fin a) (Fin a) ℝ → Matrix (Fin a) (Fin a) ℝ} (hG : ∀ A, Spec.IsGeneralisedInverse A (pinv A)) (y : Fin a → ℝ) {w : Fin b → ℝ} (hw : ∀ j, 0 ≤ w j) (s : Bmdr.Admm (Fin a) (Fin b)) :
    ∃ K, kernel k p X = .ok K ∧
      (∃ best, Spec.IsBestModel (K.submatrix lab lab) (K.submatrix lab sel) gamma (fun _ => 1) y best ∧
        Tendsto (fun m => Spec.selectionLoss (K.submatrix lab lab) (K.submatrix lab sel) gamma (fun _ => 1) y
          ((Bmdr.bmdrRound pinv (K.submatrix lab lab) (K.submatrix lab sel) gamma rho y)^[m] s).tau) atTop
          (𝓝 (Spec.selectionLoss (K.submatrix lab lab) (K.submatrix lab sel) gamma (fun _ => 1) y best))) ∧
      (∃ best, Spec.IsBestModel (K.submatrix lab lab) (K.submatrix lab sel) gamma w y best ∧
        Tendsto (fun m => Spec.selectionLoss (K.submatrix lab lab) (K.submatrix lab sel) gamma w y
          ((Bmdr.spalRound pinv (K.submatrix lab lab) (K.submatrix lab sel) gamma rho w y)^[m] s).tau) atTop
          (𝓝 (Spec.selectionLoss (K.submatrix lab lab) (K.submatrix lab sel) gamma w y best))) := by
  obtain ⟨K, hK, hp⟩ := C118_psd h X
  have hb := hp.submatrix lab
  have hs : (K.submatrix lab lab)ᵀ = K.submatrix lab lab := by
    have := hb.isHermitian
    rwa [Matrix.IsHermitian, conjTranspose_eq_transpose_of_trivial] at this
  have hq : ∀ v, 0 ≤ v ⬝ᵥ (K.submatrix lab lab) *ᵥ v := fun v => by
    have := hb.dotProduct_mulVec_nonneg v
    simpa using this
  obtain ⟨b1, h1⟩ := Bmdr.C111_best_exists hs hq (K.submatrix lab sel) hg (w := fun _ => 1) (fun _ => zero_le_one) y
  obtain ⟨b2, h2⟩ := Bmdr.C111_best_exists hs hq (K.submatrix lab sel) hg hw y
  exact ⟨K, hK, ⟨b1, h1, (Bmdr.C111_bmdr_converges hs hq hg hr hG s h1).1⟩, ⟨b2, h2, (Bmdr.C111_spal_converges hs hq hg hr hw hG s h2).1⟩⟩

/-! ## Negative parameters -/

/-- Parameters that are negative are accepted, and then the constructor of QUIRE may fail: with `coef0 = -1` and an odd degree for `n` examples whose features are zero and `lambda = n`. -/
theorem C118_negative_violation (hn : 0 < n) {d : ℕ} (hd : Odd d) :
    quireInit .poly { coef0 := some (-1), degree := some d } (some n) (0 : Matrix (Fin n) φ ℝ) = .error .genericException := by
  have e : kernel .poly { coef0 := some (-1), degree := some d } (0 : Matrix (Fin n) φ ℝ) = .ok (Matrix.of fun _ _ => -1) := by
    simp only [kernel, calcMatrix]
    rw [dif_pos (by simp)]
    congr 1
    ext i j
    simp [poly, hd.neg_one_pow]
  simp only [quireInit, e, Option.getD_some]
  have h0 : ((Matrix.of fun _ _ => -1 : Matrix (Fin n) (Fin n) ℝ) + (n : ℝ) • 1).det = 0 := by
    have : Nonempty (Fin n) := ⟨⟨0, hn⟩⟩
    refine Matrix.exists_mulVec_eq_zero_iff.1 ⟨fun _ => 1, ?_, ?_⟩
    · intro h
      exact one_ne_zero (congrFun h ⟨0, hn⟩)
    · ext i
      rw [Matrix.add_mulVec, Matrix.smul_mulVec, Matrix.one_mulVec]
      simp [Matrix.mulVec, dotProduct]
  simp only [inv, if_pos h0]

/-! ## Cases -/

/-- Three examples, two of them equal: the kernel matrix is singular, the regularised one is not. -/
example : ∃ K L, quireInit .rbf {} none (!![1, 2; 1, 2; 0, 0] : Matrix (Fin 3) (Fin 2) ℝ) = .ok (K, L) ∧ K.det = 0 ∧ 0 < L.det := by
  obtain ⟨K, L, h, hk, -, -, -, hb⟩ := C118_quire (k := .rbf) (p := {}) (by intro g hg; cases hg) (lam := none) (by intro l hl; cases hl) (!![1, 2; 1, 2; 0, 0] : Matrix (Fin 3) (Fin 2) ℝ)
  refine ⟨K, L, h, ?_, by simpa using (hb id Function.injective_id).2.1⟩
  obtain ⟨⟨K', h', e⟩, -⟩ := C118_defaults (!![1, 2; 1, 2; 0, 0] : Matrix (Fin 3) (Fin 2) ℝ)
  rw [hk] at h'
  cases h'
  refine Matrix.det_zero_of_row_eq (i := 0) (j := 1) (by decide) ?_
  ext j
  rw [e, e]
  rfl

example : kernel .poly { degree := some 2 } (!![1, 2; 3, 4] : Matrix (Fin 2) (Fin 2) ℝ) = .ok !![36, 144; 144, 676] := by
  obtain ⟨-, ⟨K, h, e⟩, -⟩ := C118_kernels { degree := some 2 } (!![1, 2; 3, 4] : Matrix (Fin 2) (Fin 2) ℝ)
  rw [h]
  congr 1
  ext i j
  rw [e]
  fin_cases i <;> fin_cases j <;> norm_num [Spec.polyKernel, Fin.sum_univ_two]

example : BuiltIn .poly { gamma := some (1 / 2), coef0 := some 0 } := by
  constructor <;> intro g hg <;> cases hg <;> norm_num

end Alipy.Kernels

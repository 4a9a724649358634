import Verif.Model.Kernel
import Verif.Spec.Kernel
import Mathlib.Analysis.Matrix.Order
import Mathlib.Analysis.SpecialFunctions.Exponential
import Mathlib.Tactic.Linarith
import Mathlib.Tactic.Ring
import Mathlib.Tactic.FieldSimp
import Mathlib.Tactic.Positivity
/-!
# Properties of the Gaussian kernel matrix (C79)
-/
namespace Alipy.Kernel
open Matrix

variable {ν φ : Type} [Fintype ν] [Fintype φ]

/-- **C79** (entries): every entry is the Gaussian function of the distance of the two examples. -/
theorem C79_entry (X : Matrix ν φ ℝ) (sigma : ℝ) (i j : ν) : gaussian X sigma i j = Real.exp (-Spec.sqDist (X i) (X j) / (2 * sigma ^ 2)) := by
  unfold gaussian tmp Spec.sqDist
  simp only [Matrix.of_apply, Matrix.mul_apply, Matrix.transpose_apply, mul_one, one_mul, Finset.univ_unique, Finset.sum_singleton]
  congr 2
  rw [← Finset.sum_neg_distrib, ← Finset.sum_neg_distrib, Finset.mul_sum, ← Finset.sum_sub_distrib, ← Finset.sum_add_distrib]
  refine Finset.sum_congr rfl fun f _ => ?_
  ring

theorem sqDist_nonneg (x y : φ → ℝ) : 0 ≤ Spec.sqDist x y := Finset.sum_nonneg fun _ _ => sq_nonneg _

theorem sqDist_eq_zero {x y : φ → ℝ} : Spec.sqDist x y = 0 ↔ x = y := by
  unfold Spec.sqDist
  rw [Finset.sum_eq_zero_iff_of_nonneg fun _ _ => sq_nonneg _]
  constructor
  · intro h
    funext f
    have := pow_eq_zero_iff (two_ne_zero) |>.1 (h f (Finset.mem_univ f))
    linarith
  · rintro rfl f _
    simp

/-- **C79** (range): the matrix is symmetric, its entries are in (0, 1], and an entry is 1 exactly if the two examples have the same features. -/
theorem C79_range (X : Matrix ν φ ℝ) {sigma : ℝ} (hs : sigma ≠ 0) (i j : ν) :
    gaussian X sigma i j = gaussian X sigma j i ∧ 0 < gaussian X sigma i j ∧ gaussian X sigma i j ≤ 1 ∧ (gaussian X sigma i j = 1 ↔ X i = X j) := by
  have hd : 0 < 2 * sigma ^ 2 := by positivity
  simp only [C79_entry]
  refine ⟨?_, Real.exp_pos _, ?_, ?_⟩
  · congr 3
    unfold Spec.sqDist
    exact Finset.sum_congr rfl fun f _ => by ring
  · rw [Real.exp_le_one_iff]
    exact div_nonpos_of_nonpos_of_nonneg (by linarith [sqDist_nonneg (X i) (X j)]) hd.le
  · rw [Real.exp_eq_one_iff, div_eq_zero_iff, or_iff_left hd.ne', neg_eq_zero, sqDist_eq_zero]

/-- **C79** (order): one pair of examples is more similar than another exactly if it is closer. -/
theorem C79_order (X : Matrix ν φ ℝ) {sigma : ℝ} (hs : sigma ≠ 0) (i j k l : ν) :
    gaussian X sigma i j < gaussian X sigma k l ↔ Spec.sqDist (X k) (X l) < Spec.sqDist (X i) (X j) := by
  have hd : 0 < 2 * sigma ^ 2 := by positivity
  rw [C79_entry, C79_entry, Real.exp_lt_exp, div_lt_div_iff_of_pos_right hd]
  constructor <;> intro h <;> linarith

theorem hadamard_pow_psd {A : Matrix ν ν ℝ} (hA : A.PosSemidef) : ∀ n : Nat, (Matrix.of fun i j => A i j ^ n : Matrix ν ν ℝ).PosSemidef
  | 0 => by
    have : (Matrix.of fun i j => A i j ^ 0 : Matrix ν ν ℝ) = vecMulVec (fun _ => (1 : ℝ)) (star (fun _ => (1 : ℝ))) := by
      ext i j
      simp [vecMulVec]
    rw [this]
    exact posSemidef_vecMulVec_self_star _
  | n + 1 => by
    have : (Matrix.of fun i j => A i j ^ (n + 1) : Matrix ν ν ℝ) = (Matrix.of fun i j => A i j ^ n : Matrix ν ν ℝ) ⊙ A := by
      ext i j
      simp [pow_succ, hadamard]
    rw [this]
    exact (hadamard_pow_psd hA n).hadamard hA

theorem psd_quad {A : Matrix ν ν ℝ} (hA : A.PosSemidef) (v : ν → ℝ) : 0 ≤ ∑ i, ∑ j, v i * v j * A i j := by
  have := hA.dotProduct_mulVec_nonneg v
  have e : star v ⬝ᵥ A *ᵥ v = ∑ i, ∑ j, v i * v j * A i j := by
    simp only [star_trivial, dotProduct, mulVec, Finset.mul_sum]
    refine Finset.sum_congr rfl fun i _ => Finset.sum_congr rfl fun j _ => ?_
    ring
  rwa [e] at this

/-- The entrywise exponential function of a positive semidefinite matrix. -/
theorem exp_psd {A : Matrix ν ν ℝ} (hA : A.PosSemidef) (v : ν → ℝ) : 0 ≤ ∑ i, ∑ j, v i * v j * Real.exp (A i j) := by
  have h : HasSum (fun n : ℕ => ∑ i, ∑ j, v i * v j * (A i j ^ n / n.factorial)) (∑ i, ∑ j, v i * v j * Real.exp (A i j)) := by
    refine hasSum_sum fun i _ => hasSum_sum fun j _ => HasSum.mul_left _ ?_
    rw [Real.exp_eq_exp_ℝ]
    exact NormedSpace.expSeries_div_hasSum_exp (A i j)
  refine h.nonneg fun n => ?_
  have := psd_quad (hadamard_pow_psd hA n) v
  have e : ∑ i, ∑ j, v i * v j * (A i j ^ n / n.factorial) = (∑ i, ∑ j, v i * v j * (Matrix.of fun i j => A i j ^ n : Matrix ν ν ℝ) i j) / n.factorial := by
    simp only [Finset.sum_div, Matrix.of_apply]
    refine Finset.sum_congr rfl fun i _ => Finset.sum_congr rfl fun j _ => ?_
    ring
  rw [e]
  positivity

/-- **C79** (kernel): the matrix is positive semidefinite, as the methods that take a kernel matrix ask. -/
theorem C79_psd (X : Matrix ν φ ℝ) {sigma : ℝ} (hs : sigma ≠ 0) : (gaussian X sigma).PosSemidef := by
  refine .of_dotProduct_mulVec_nonneg ?_ ?_
  · ext i j
    simp only [conjTranspose_apply, star_trivial]
    exact (C79_range X hs j i).1
  · intro v
    have hA : ((1 / sigma ^ 2) • (X * Xᵀ)).PosSemidef := by
      have := (posSemidef_self_mul_conjTranspose X).smul (by positivity : 0 ≤ 1 / sigma ^ 2)
      simpa using this
    have := exp_psd hA (fun i => v i * Real.exp (-(∑ f, X i f ^ 2) / (2 * sigma ^ 2)))
    have e : star v ⬝ᵥ gaussian X sigma *ᵥ v = ∑ i, ∑ j, v i * Real.exp (-(∑ f, X i f ^ 2) / (2 * sigma ^ 2)) * (v j * Real.exp (-(∑ f, X j f ^ 2) / (2 * sigma ^ 2))) *
        Real.exp (((1 / sigma ^ 2) • (X * Xᵀ) : Matrix ν ν ℝ) i j) := by
      simp only [star_trivial, dotProduct, mulVec, Finset.mul_sum]
      refine Finset.sum_congr rfl fun i _ => Finset.sum_congr rfl fun j _ => ?_
      have : gaussian X sigma i j = Real.exp (-(∑ f, X i f ^ 2) / (2 * sigma ^ 2)) * Real.exp (-(∑ f, X j f ^ 2) / (2 * sigma ^ 2)) * Real.exp (((1 / sigma ^ 2) • (X * Xᵀ) : Matrix ν ν ℝ) i j) := by
        rw [C79_entry, ← Real.exp_add, ← Real.exp_add]
        congr 1
        unfold Spec.sqDist
        have e2 : ∑ f, (X i f - X j f) ^ 2 = ∑ f, X i f ^ 2 + ∑ f, X j f ^ 2 - 2 * (X * Xᵀ) i j := by
          simp only [Matrix.mul_apply, Matrix.transpose_apply]
          rw [Finset.mul_sum, ← Finset.sum_add_distrib, ← Finset.sum_sub_distrib]
          refine Finset.sum_congr rfl fun f _ => ?_
          ring
        rw [e2, Matrix.smul_apply, smul_eq_mul]
        field_simp
        ring
      rw [this]
      ring
    rw [e]
    exact this

example : Spec.sqDist (![0, 3] : Fin 2 → ℝ) ![4, 0] = 25 := by
  norm_num [Spec.sqDist, Fin.sum_univ_two]

end Alipy.Kernel

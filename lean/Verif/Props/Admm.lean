import Verif.Model.Admm
import Verif.Spec.Admm
import Verif.Proof.Admm
import Verif.Props.Bmdr
import Mathlib.Analysis.Normed.Module.FiniteDimension
/-!
# C111: the loops of BMDR and SPAL approach the best model
-/
set_option linter.unusedSectionVars false
set_option linter.unusedSimpArgs false
namespace Alipy.Bmdr
open Alipy Matrix Filter Topology

variable {ι κ : Type} [Fintype ι] [Fintype κ] [DecidableEq ι]

/-! ## The loss as a function -/

/-- The quadratic part of the regularised loss. -/
noncomputable def quad (KLL : Matrix ι ι ℝ) (gamma : ℝ) (h : ι → ℝ) : ℝ := (KLL *ᵥ h) ⬝ᵥ (KLL *ᵥ h) + gamma * (h ⬝ᵥ KLL *ᵥ h)

/-- Half the gradient of the regularised loss. -/
noncomputable def halfGrad (KLL : Matrix ι ι ℝ) (gamma : ℝ) (y tau : ι → ℝ) : ι → ℝ := KLL *ᵥ (KLL *ᵥ tau) - KLL *ᵥ y + gamma • (KLL *ᵥ tau)

theorem dot_halfGrad {KLL : Matrix ι ι ℝ} (hs : KLLᵀ = KLL) (gamma : ℝ) (y tau h : ι → ℝ) :
    h ⬝ᵥ halfGrad KLL gamma y tau = (KLL *ᵥ h) ⬝ᵥ (KLL *ᵥ tau) - (KLL *ᵥ h) ⬝ᵥ y + gamma * (h ⬝ᵥ KLL *ᵥ tau) := by
  unfold halfGrad
  rw [dotProduct_add, dotProduct_sub, dotProduct_smul, smul_eq_mul, symm_dot hs h (KLL *ᵥ tau), symm_dot hs h y]

theorem ridge_expand {KLL : Matrix ι ι ℝ} (hs : KLLᵀ = KLL) (gamma : ℝ) (y tau h : ι → ℝ) :
    Spec.ridgeLoss KLL gamma y (tau + h) = Spec.ridgeLoss KLL gamma y tau + 2 * (h ⬝ᵥ halfGrad KLL gamma y tau) + quad KLL gamma h := by
  rw [dot_halfGrad hs]
  unfold Spec.ridgeLoss quad
  simp only [mulVec_add, Pi.add_apply]
  rw [sum_sq_sub y]
  have e2 : tau ⬝ᵥ KLL *ᵥ h = h ⬝ᵥ KLL *ᵥ tau := by rw [symm_dot hs, dotProduct_comm]
  rw [dotProduct_add, add_dotProduct, add_dotProduct, e2]
  ring

theorem quad_pos {KLL : Matrix ι ι ℝ} (hp : ∀ v, 0 ≤ v ⬝ᵥ KLL *ᵥ v) {gamma : ℝ} (hg : 0 ≤ gamma) (h : ι → ℝ) :
    ∑ i, (KLL *ᵥ h) i ^ 2 ≤ quad KLL gamma h := by
  have e : (KLL *ᵥ h) ⬝ᵥ (KLL *ᵥ h) = ∑ i, (KLL *ᵥ h) i ^ 2 := Finset.sum_congr rfl fun i _ => (pow_two _).symm
  unfold quad
  rw [e]
  linarith [mul_nonneg hg (hp h)]

/-- A model that solves the normal equations. -/
theorem ridge_of_normal {KLL : Matrix ι ι ℝ} (hs : KLLᵀ = KLL) {Q : Matrix ι κ ℝ} {gamma rho : ℝ} {y tau : ι → ℝ} {z delta : κ → ℝ}
    (h1 : admmMat KLL Q gamma rho *ᵥ tau = admmRhs KLL Q rho y z delta) (h : ι → ℝ) :
    Spec.ridgeLoss KLL gamma y (tau + h) = Spec.ridgeLoss KLL gamma y tau + ∑ j, (delta j + rho * (z j - (tau ᵥ* Q) j)) * (h ᵥ* Q) j + quad KLL gamma h := by
  rw [ridge_expand hs, dot_halfGrad hs]
  have e : h ⬝ᵥ (admmMat KLL Q gamma rho *ᵥ tau) = h ⬝ᵥ admmRhs KLL Q rho y z delta := by rw [h1]
  rw [dot_admmMat hs, dot_admmRhs hs] at e
  have e2 : ∑ j, (delta j + rho * (z j - (tau ᵥ* Q) j)) * (h ᵥ* Q) j = (h ᵥ* Q) ⬝ᵥ delta + rho * ((h ᵥ* Q) ⬝ᵥ z) - rho * ((h ᵥ* Q) ⬝ᵥ (tau ᵥ* Q)) := by
    simp only [dotProduct, Finset.mul_sum, ← Finset.sum_add_distrib, ← Finset.sum_sub_distrib]
    exact Finset.sum_congr rfl fun j _ => by ring
  rw [e2]
  linarith

theorem nonneg_of_small {A B : ℝ} (h : ∀ s, 0 < s → s ≤ 1 → 0 ≤ A + s * B) : 0 ≤ A := by
  by_contra hc
  push Not at hc
  have hB : 0 < |B| + 1 := by positivity
  have h1 : 0 < min 1 (-A / (2 * (|B| + 1))) := lt_min zero_lt_one (div_pos (by linarith) (by linarith))
  have h2 := h _ h1 (min_le_left _ _)
  have h3 : min 1 (-A / (2 * (|B| + 1))) * B ≤ -A / (2 * (|B| + 1)) * (|B| + 1) := by
    refine (mul_le_mul_of_nonneg_left (by linarith [le_abs_self B] : B ≤ |B| + 1) h1.le).trans ?_
    exact mul_le_mul_of_nonneg_right (min_le_right _ _) hB.le
  have h4 : -A / (2 * (|B| + 1)) * (|B| + 1) = -A / 2 := by field_simp
  linarith

/-- The minimum in one coordinate, with all the curvature there is. -/
theorem strong_subgradient {rho w t d z : ℝ} (hw : 0 ≤ w)
    (h : ∀ x, (w + rho / 2) * z ^ 2 + 2 * w * |z| - 2 * ((rho * t - d) / 2) * z ≤ (w + rho / 2) * x ^ 2 + 2 * w * |x| - 2 * ((rho * t - d) / 2) * x) (x : ℝ) :
    w * (z ^ 2 + 2 * |z|) - (d + rho * (z - t)) * (x - z) + w * (x - z) ^ 2 ≤ w * (x ^ 2 + 2 * |x|) := by
  have key : 0 ≤ (2 * (w + rho / 2) * z - (rho * t - d)) * (x - z) + 2 * w * |x| - 2 * w * |z| := by
    refine nonneg_of_small (B := (w + rho / 2) * (x - z) ^ 2) fun s hs0 hs1 => ?_
    have h1 := h (z + s * (x - z))
    have h2 : |z + s * (x - z)| ≤ (1 - s) * |z| + s * |x| := by
      have e : z + s * (x - z) = (1 - s) * z + s * x := by ring
      rw [e]
      refine (abs_add_le _ _).trans ?_
      rw [abs_mul, abs_mul, abs_of_nonneg hs0.le, abs_of_nonneg (by linarith : 0 ≤ 1 - s)]
    have h3 := mul_le_mul_of_nonneg_left h2 (by linarith : 0 ≤ 2 * w)
    have h4 : 0 ≤ s * ((2 * (w + rho / 2) * z - (rho * t - d)) * (x - z) + 2 * w * |x| - 2 * w * |z| + s * ((w + rho / 2) * (x - z) ^ 2)) := by
      have e1 : (w + rho / 2) * (z + s * (x - z)) ^ 2 = (w + rho / 2) * z ^ 2 + s * (2 * (w + rho / 2) * z * (x - z)) + s * (s * ((w + rho / 2) * (x - z) ^ 2)) := by ring
      rw [e1] at h1
      have e2 : s * ((2 * (w + rho / 2) * z - (rho * t - d)) * (x - z) + 2 * w * |x| - 2 * w * |z| + s * ((w + rho / 2) * (x - z) ^ 2)) =
          s * (2 * (w + rho / 2) * z * (x - z)) + s * (s * ((w + rho / 2) * (x - z) ^ 2)) - s * ((rho * t - d) * (x - z)) + 2 * w * ((1 - s) * |z| + s * |x|) - 2 * w * |z| := by ring
      rw [e2]
      have e3 : 2 * ((rho * t - d) / 2) * (z + s * (x - z)) = 2 * ((rho * t - d) / 2) * z + s * ((rho * t - d) * (x - z)) := by ring
      rw [e3] at h1
      linarith
    exact nonneg_of_mul_nonneg_right h4 hs0
  nlinarith

/-! ## There is a best model -/

theorem loss_congr {KLL : Matrix ι ι ℝ} (hs : KLLᵀ = KLL) {Q : Matrix ι κ ℝ} {gamma : ℝ} {w : κ → ℝ} {y a b : ι → ℝ} (h1 : KLL *ᵥ a = KLL *ᵥ b)
    (h2 : ∀ j, w j * (a ᵥ* Q) j = w j * (b ᵥ* Q) j) : Spec.selectionLoss KLL Q gamma w y a = Spec.selectionLoss KLL Q gamma w y b := by
  unfold Spec.selectionLoss Spec.ridgeLoss
  have e : a ⬝ᵥ KLL *ᵥ a = b ⬝ᵥ KLL *ᵥ b := by
    rw [h1, symm_dot hs, h1, dotProduct_comm]
  rw [h1] at *
  rw [← h1, e, h1]
  congr 1
  refine Finset.sum_congr rfl fun j _ => ?_
  by_cases hw : w j = 0
  · simp [hw]
  · rw [mul_left_cancel₀ hw (h2 j)]

theorem continuous_loss (KLL : Matrix ι ι ℝ) (Q : Matrix ι κ ℝ) (gamma : ℝ) (w : κ → ℝ) (y : ι → ℝ) : Continuous (Spec.selectionLoss KLL Q gamma w y) := by
  unfold Spec.selectionLoss Spec.ridgeLoss
  simp only [mulVec, vecMul, dotProduct]
  fun_prop

/-- **C111**: there is a best model. -/
theorem C111_best_exists {KLL : Matrix ι ι ℝ} (hs : KLLᵀ = KLL) (hp : ∀ v, 0 ≤ v ⬝ᵥ KLL *ᵥ v) (Q : Matrix ι κ ℝ) {gamma : ℝ} (hg : 0 ≤ gamma)
    {w : κ → ℝ} (hw : ∀ j, 0 ≤ w j) (y : ι → ℝ) : ∃ tau, Spec.IsBestModel KLL Q gamma w y tau := by
  let A : (ι → ℝ) →ₗ[ℝ] (ι → ℝ) × (κ → ℝ) :=
    { toFun := fun h => (KLL *ᵥ h, fun j => w j * (h ᵥ* Q) j)
      map_add' := by
        intro a b
        refine Prod.ext (mulVec_add _ _ _) ?_
        funext j
        simp [add_vecMul, mul_add]
      map_smul' := by
        intro c a
        refine Prod.ext (mulVec_smul _ _ _) ?_
        funext j
        simp [smul_vecMul]
        ring }
  obtain ⟨sec, hsec⟩ := LinearMap.exists_rightInverse_of_surjective A.rangeRestrict (LinearMap.range_rangeRestrict A)
  have hA : ∀ r : LinearMap.range A, A (sec r) = r := by
    intro r
    have := congrArg (fun f => ((f r : LinearMap.range A) : (ι → ℝ) × (κ → ℝ))) hsec
    simpa using this
  have hcont : Continuous (fun r : LinearMap.range A => Spec.selectionLoss KLL Q gamma w y (sec r)) :=
    (continuous_loss KLL Q gamma w y).comp (LinearMap.continuous_of_finiteDimensional sec)
  have hbound : ∀ r : LinearMap.range A, ‖r‖ + (-(∑ i, |y i| + ∑ j, w j + 1)) ≤ Spec.selectionLoss KLL Q gamma w y (sec r) := by
    intro r
    have h1 : ∀ i, (KLL *ᵥ sec r) i = (r : (ι → ℝ) × (κ → ℝ)).1 i := fun i => congrFun (congrArg Prod.fst (hA r)) i
    have h2 : ∀ j, w j * (sec r ᵥ* Q) j = (r : (ι → ℝ) × (κ → ℝ)).2 j := fun j => congrFun (congrArg Prod.snd (hA r)) j
    have hF1 : ∀ i, (y i - (KLL *ᵥ sec r) i) ^ 2 ≤ Spec.selectionLoss KLL Q gamma w y (sec r) := by
      intro i
      unfold Spec.selectionLoss Spec.ridgeLoss
      have a := Finset.single_le_sum (f := fun i => (y i - (KLL *ᵥ sec r) i) ^ 2) (fun i _ => sq_nonneg _) (Finset.mem_univ i)
      have b := mul_nonneg hg (hp (sec r))
      have c : 0 ≤ ∑ j, w j * ((sec r ᵥ* Q) j ^ 2 + 2 * |(sec r ᵥ* Q) j|) := Finset.sum_nonneg fun j _ => mul_nonneg (hw j) (by positivity)
      linarith
    have hF2 : ∀ j, w j * (sec r ᵥ* Q) j ^ 2 ≤ Spec.selectionLoss KLL Q gamma w y (sec r) := by
      intro j
      unfold Spec.selectionLoss Spec.ridgeLoss
      have a := Finset.single_le_sum (f := fun j => w j * ((sec r ᵥ* Q) j ^ 2 + 2 * |(sec r ᵥ* Q) j|)) (fun j _ => mul_nonneg (hw j) (by positivity)) (Finset.mem_univ j)
      have b := mul_nonneg hg (hp (sec r))
      have c : 0 ≤ ∑ i, (y i - (KLL *ᵥ sec r) i) ^ 2 := Finset.sum_nonneg fun j _ => sq_nonneg _
      have d : 0 ≤ w j * (2 * |(sec r ᵥ* Q) j|) := mul_nonneg (hw j) (by positivity)
      nlinarith
    have hF0 : 0 ≤ Spec.selectionLoss KLL Q gamma w y (sec r) := by
      unfold Spec.selectionLoss Spec.ridgeLoss
      have b := mul_nonneg hg (hp (sec r))
      have c : 0 ≤ ∑ i, (y i - (KLL *ᵥ sec r) i) ^ 2 := Finset.sum_nonneg fun j _ => sq_nonneg _
      have d : 0 ≤ ∑ j, w j * ((sec r ᵥ* Q) j ^ 2 + 2 * |(sec r ᵥ* Q) j|) := Finset.sum_nonneg fun j _ => mul_nonneg (hw j) (by positivity)
      linarith
    have hY : ∀ i, |y i| ≤ ∑ i, |y i| := fun i => Finset.single_le_sum (f := fun i => |y i|) (fun i _ => abs_nonneg _) (Finset.mem_univ i)
    have hW : ∀ j, w j ≤ ∑ j, w j := fun j => Finset.single_le_sum (f := w) (fun j _ => hw j) (Finset.mem_univ j)
    have hY0 : 0 ≤ ∑ i, |y i| := Finset.sum_nonneg fun i _ => abs_nonneg _
    have hW0 : 0 ≤ ∑ j, w j := Finset.sum_nonneg fun j _ => hw j
    have hn : ‖(r : (ι → ℝ) × (κ → ℝ))‖ ≤ ∑ i, |y i| + ∑ j, w j + 1 + Spec.selectionLoss KLL Q gamma w y (sec r) := by
      rw [Prod.norm_def]
      refine max_le ?_ ?_
      · rw [pi_norm_le_iff_of_nonneg (by linarith)]
        intro i
        rw [← h1, Real.norm_eq_abs]
        have a : |(KLL *ᵥ sec r) i| ≤ |y i| + |y i - (KLL *ᵥ sec r) i| := by
          have := abs_sub_abs_le_abs_sub ((KLL *ᵥ sec r) i) (y i)
          rw [abs_sub_comm] at this
          linarith
        have b : |y i - (KLL *ᵥ sec r) i| ≤ 1 + (y i - (KLL *ᵥ sec r) i) ^ 2 := by
          rw [← sq_abs]
          nlinarith [sq_nonneg (|y i - (KLL *ᵥ sec r) i| - 1), abs_nonneg (y i - (KLL *ᵥ sec r) i)]
        linarith [hF1 i, hY i]
      · rw [pi_norm_le_iff_of_nonneg (by linarith)]
        intro j
        rw [← h2, Real.norm_eq_abs, abs_mul, abs_of_nonneg (hw j)]
        have b : |(sec r ᵥ* Q) j| ≤ 1 + (sec r ᵥ* Q) j ^ 2 := by
          rw [← sq_abs]
          nlinarith [sq_nonneg (|(sec r ᵥ* Q) j| - 1), abs_nonneg ((sec r ᵥ* Q) j)]
        have := mul_le_mul_of_nonneg_left b (hw j)
        linarith [hF2 j, hW j]
    have : ‖r‖ = ‖(r : (ι → ℝ) × (κ → ℝ))‖ := rfl
    linarith
  obtain ⟨r, hr⟩ := hcont.exists_forall_le (tendsto_atTop_mono hbound (tendsto_atTop_add_const_right _ _ (tendsto_norm_cocompact_atTop)))
  refine ⟨sec r, fun tau' => ?_⟩
  have h := hr ⟨A tau', LinearMap.mem_range_self A tau'⟩
  refine h.trans (le_of_eq ?_)
  have h3 := hA ⟨A tau', LinearMap.mem_range_self A tau'⟩
  exact loss_congr hs (congrArg Prod.fst h3) (fun j => congrFun (congrArg Prod.snd h3) j)

/-! ## The multiplier of a best model -/

/-- The bounds of the slope of `w (x² + 2|x|)` at `t`. -/
noncomputable def slopeLo (w t : ℝ) : ℝ := if t = 0 then -(2 * w) else if 0 < t then w * (2 * t + 2) else w * (2 * t - 2)
/-- See `slopeLo`. -/
noncomputable def slopeHi (w t : ℝ) : ℝ := if t = 0 then 2 * w else if 0 < t then w * (2 * t + 2) else w * (2 * t - 2)

theorem slope_le {w : ℝ} (hw : 0 ≤ w) (t : ℝ) : slopeLo w t ≤ slopeHi w t := by
  unfold slopeLo slopeHi
  split_ifs <;> linarith

theorem slope_abs {w : ℝ} (hw : 0 ≤ w) {t u : ℝ} (h1 : slopeLo w t ≤ u) (h2 : u ≤ slopeHi w t) : |u| ≤ 2 * w * (|t| + 1) := by
  unfold slopeLo at h1
  unfold slopeHi at h2
  rcases lt_trichotomy t 0 with h | h | h
  · rw [if_neg h.ne, if_neg (not_lt.2 h.le)] at h1 h2
    rw [abs_of_neg h, abs_le]
    have := mul_nonneg hw (by linarith : 0 ≤ -t)
    constructor <;> nlinarith
  · rw [if_pos h] at h1 h2
    rw [h, abs_zero, abs_le]
    constructor <;> linarith
  · rw [if_neg h.ne', if_pos h] at h1 h2
    rw [abs_of_pos h, abs_le]
    have := mul_nonneg hw h.le
    constructor <;> nlinarith

/-- Every slope between the bounds is that of a tangent from below. -/
theorem slope_below {w : ℝ} (hw : 0 ≤ w) {t u : ℝ} (h1 : slopeLo w t ≤ u) (h2 : u ≤ slopeHi w t) (x : ℝ) :
    w * (t ^ 2 + 2 * |t|) + u * (x - t) + w * (x - t) ^ 2 ≤ w * (x ^ 2 + 2 * |x|) := by
  unfold slopeLo at h1
  unfold slopeHi at h2
  rcases lt_trichotomy t 0 with h | h | h
  · rw [if_neg h.ne, if_neg (not_lt.2 h.le)] at h1 h2
    have hu : u = w * (2 * t - 2) := le_antisymm h2 h1
    rw [abs_of_neg h, hu]
    nlinarith [mul_le_mul_of_nonneg_left (neg_abs_le x) hw]
  · rw [if_pos h] at h1 h2
    rw [h]
    simp only [sub_zero, abs_zero, mul_zero, add_zero, ne_eq, OfNat.ofNat_ne_zero, not_false_eq_true, zero_pow, zero_add]
    have : u * x ≤ 2 * w * |x| := by
      rcases le_total 0 x with hx | hx
      · rw [abs_of_nonneg hx]; exact mul_le_mul_of_nonneg_right h2 hx
      · rw [abs_of_nonpos hx]; nlinarith
    nlinarith
  · rw [if_neg h.ne', if_pos h] at h1 h2
    have hu : u = w * (2 * t + 2) := le_antisymm h2 h1
    rw [abs_of_pos h, hu]
    nlinarith [mul_le_mul_of_nonneg_left (le_abs_self x) hw]

/-- In one direction the bound is attained up to second order. -/
theorem slope_above {w : ℝ} (hw : 0 ≤ w) (t a : ℝ) :
    w * ((t + a) ^ 2 + 2 * |t + a|) ≤ w * (t ^ 2 + 2 * |t|) + (if 0 ≤ a then slopeHi w t else slopeLo w t) * a + w * (1 + 2 / |t|) * a ^ 2 := by
  rcases lt_trichotomy t 0 with h | h | h
  · have e : (if 0 ≤ a then slopeHi w t else slopeLo w t) = w * (2 * t - 2) := by
      unfold slopeHi slopeLo
      simp [h.ne, not_lt.2 h.le]
    rw [e, abs_of_neg h]
    have key : |t + a| ≤ -t - a + a ^ 2 / (-t) := by
      have hp : 0 < -t := by linarith
      rcases le_total 0 (t + a) with h1 | h1
      · rw [abs_of_nonneg h1]
        have : 0 ≤ a ^ 2 / (-t) - 2 * (t + a) := by
          have : a ^ 2 / (-t) - 2 * (t + a) = (t ^ 2 + (t + a) ^ 2) / (-t) := by
            have : t ≠ 0 := h.ne
            field_simp
            ring
          rw [this]
          positivity
        linarith
      · rw [abs_of_nonpos h1]
        have : 0 ≤ a ^ 2 / (-t) := by positivity
        linarith
    have := mul_le_mul_of_nonneg_left key hw
    have e2 : w * (1 + 2 / -t) * a ^ 2 = w * a ^ 2 + 2 * (w * (a ^ 2 / (-t))) := by ring
    rw [e2]
    nlinarith
  · rw [h]
    have e : (if 0 ≤ a then slopeHi w 0 else slopeLo w 0) * a = 2 * w * |a| := by
      unfold slopeHi slopeLo
      rw [if_pos rfl, if_pos rfl]
      split_ifs with h1
      · rw [abs_of_nonneg h1]
      · rw [abs_of_neg (not_le.1 h1)]; ring
    rw [e]
    simp only [zero_add, abs_zero, mul_zero, add_zero, div_zero, ne_eq, OfNat.ofNat_ne_zero, not_false_eq_true, zero_pow, mul_one]
    nlinarith
  · have e : (if 0 ≤ a then slopeHi w t else slopeLo w t) = w * (2 * t + 2) := by
      unfold slopeHi slopeLo
      simp [h.ne', h]
    rw [e, abs_of_pos h]
    have key : |t + a| ≤ t + a + a ^ 2 / t := by
      rcases le_total 0 (t + a) with h1 | h1
      · rw [abs_of_nonneg h1]
        have : 0 ≤ a ^ 2 / t := by positivity
        linarith
      · rw [abs_of_nonpos h1]
        have : 0 ≤ a ^ 2 / t + 2 * (t + a) := by
          have : a ^ 2 / t + 2 * (t + a) = (t ^ 2 + (t + a) ^ 2) / t := by
            field_simp
            ring
          rw [this]
          positivity
        linarith
    have := mul_le_mul_of_nonneg_left key hw
    have e2 : w * (1 + 2 / t) * a ^ 2 = w * a ^ 2 + 2 * (w * (a ^ 2 / t)) := by ring
    rw [e2]
    nlinarith

theorem exists_multiplier {KLL : Matrix ι ι ℝ} (hs : KLLᵀ = KLL) {Q : Matrix ι κ ℝ} {gamma : ℝ} {w : κ → ℝ} (hw : ∀ j, 0 ≤ w j) {y tau : ι → ℝ}
    (hmin : Spec.IsBestModel KLL Q gamma w y tau) :
    ∃ delta : κ → ℝ, (∀ h, Spec.ridgeLoss KLL gamma y (tau + h) = Spec.ridgeLoss KLL gamma y tau + ∑ j, delta j * (h ᵥ* Q) j + quad KLL gamma h) ∧
      (∀ j x, w j * ((tau ᵥ* Q) j ^ 2 + 2 * |(tau ᵥ* Q) j|) - delta j * (x - (tau ᵥ* Q) j) + w j * (x - (tau ᵥ* Q) j) ^ 2 ≤ w j * (x ^ 2 + 2 * |x|)) ∧
      ∀ j, |delta j| ≤ 2 * w j * (|(tau ᵥ* Q) j| + 1) := by
  set t := tau ᵥ* Q with ht
  set c : ι → ℝ := (2 : ℝ) • halfGrad KLL gamma y tau with hc
  let lo : κ → ℝ := fun j => slopeLo (w j) (t j)
  let hi : κ → ℝ := fun j => slopeHi (w j) (t j)
  have hlohi : lo ≤ hi := fun j => slope_le (hw j) (t j)
  have hcont : Continuous (fun u : κ → ℝ => (c + Q *ᵥ u) ⬝ᵥ (c + Q *ᵥ u)) := by
    simp only [mulVec, dotProduct, Pi.add_apply]
    fun_prop
  obtain ⟨u, hu, humin⟩ := (isCompact_Icc (a := lo) (b := hi)).exists_isMinOn ⟨lo, le_refl _, hlohi⟩ hcont.continuousOn
  set R := c + Q *ᵥ u with hR
  have hfirst : ∀ v ∈ Set.Icc lo hi, 0 ≤ R ⬝ᵥ (Q *ᵥ (v - u)) := by
    intro v hv
    refine nonneg_of_small (B := (Q *ᵥ (v - u)) ⬝ᵥ (Q *ᵥ (v - u)) / 2) fun s hs0 hs1 => ?_
    have hmem : u + s • (v - u) ∈ Set.Icc lo hi := by
      refine ⟨fun j => ?_, fun j => ?_⟩
      · have := mul_nonneg (by linarith : 0 ≤ 1 - s) (sub_nonneg.2 (hu.1 j))
        have := mul_nonneg hs0.le (sub_nonneg.2 (hv.1 j))
        simp only [Pi.add_apply, Pi.smul_apply, Pi.sub_apply, smul_eq_mul]
        nlinarith
      · have := mul_nonneg (by linarith : 0 ≤ 1 - s) (sub_nonneg.2 (hu.2 j))
        have := mul_nonneg hs0.le (sub_nonneg.2 (hv.2 j))
        simp only [Pi.add_apply, Pi.smul_apply, Pi.sub_apply, smul_eq_mul]
        nlinarith
    have h1 : R ⬝ᵥ R ≤ (c + Q *ᵥ (u + s • (v - u))) ⬝ᵥ (c + Q *ᵥ (u + s • (v - u))) := humin hmem
    have e : c + Q *ᵥ (u + s • (v - u)) = R + s • (Q *ᵥ (v - u)) := by
      rw [mulVec_add, mulVec_smul, hR, add_assoc]
    clear_value R
    rw [e, dotProduct_add, add_dotProduct, add_dotProduct, dotProduct_smul, smul_dotProduct, dotProduct_smul, smul_dotProduct,
      dotProduct_comm (Q *ᵥ (v - u)) R] at h1
    simp only [smul_eq_mul] at h1
    have h2 : 0 ≤ s * (R ⬝ᵥ (Q *ᵥ (v - u)) + s * ((Q *ᵥ (v - u)) ⬝ᵥ (Q *ᵥ (v - u)) / 2)) := by nlinarith
    exact nonneg_of_mul_nonneg_right h2 hs0
  have hR0 : R = 0 := by
    set h : ι → ℝ := -R with hh
    set a := h ᵥ* Q with ha
    let v : κ → ℝ := fun j => if 0 ≤ a j then hi j else lo j
    have hv : v ∈ Set.Icc lo hi := by
      refine ⟨fun j => ?_, fun j => ?_⟩ <;> simp only [v] <;> split_ifs
      · exact hlohi j
      · exact le_refl _
      · exact le_refl _
      · exact hlohi j
    have hdir : 0 ≤ h ⬝ᵥ c + ∑ j, v j * a j := by
      refine nonneg_of_small (B := quad KLL gamma h + ∑ j, w j * (1 + 2 / |t j|) * a j ^ 2) fun s hs0 hs1 => ?_
      have h1 := hmin (tau + s • h)
      unfold Spec.selectionLoss at h1
      rw [ridge_expand hs] at h1
      have e1 : quad KLL gamma (s • h) = s * (s * quad KLL gamma h) := by
        unfold quad
        simp only [mulVec_smul, dotProduct_smul, smul_dotProduct, smul_eq_mul]
        ring
      have e2 : 2 * ((s • h) ⬝ᵥ halfGrad KLL gamma y tau) = s * (h ⬝ᵥ c) := by
        rw [hc, dotProduct_smul, smul_dotProduct, smul_eq_mul, smul_eq_mul]
        ring
      have h3 : ∑ j, w j * (((tau + s • h) ᵥ* Q) j ^ 2 + 2 * |((tau + s • h) ᵥ* Q) j|) ≤
          ∑ j, w j * (t j ^ 2 + 2 * |t j|) + s * ∑ j, v j * a j + s * (s * ∑ j, w j * (1 + 2 / |t j|) * a j ^ 2) := by
        rw [Finset.mul_sum, Finset.mul_sum, Finset.mul_sum, ← Finset.sum_add_distrib, ← Finset.sum_add_distrib]
        refine Finset.sum_le_sum fun j _ => ?_
        have e3 : ((tau + s • h) ᵥ* Q) j = t j + s * a j := by
          rw [add_vecMul, smul_vecMul, ht, ha]
          rfl
        rw [e3]
        have := slope_above (hw j) (t j) (s * a j)
        have e4 : (if 0 ≤ s * a j then slopeHi (w j) (t j) else slopeLo (w j) (t j)) = v j := by
          simp only [v, hi, lo]
          simp only [mul_nonneg_iff_of_pos_left hs0]
        rw [e4] at this
        nlinarith
      rw [e1, e2] at h1
      have h4 : 0 ≤ s * (h ⬝ᵥ c + ∑ j, v j * a j + s * (quad KLL gamma h + ∑ j, w j * (1 + 2 / |t j|) * a j ^ 2)) := by
        rw [← ht] at h1
        nlinarith
      exact nonneg_of_mul_nonneg_right h4 hs0
    have e5 : ∑ j, v j * a j = h ⬝ᵥ (Q *ᵥ v) := by
      rw [dotProduct_mulVec, ← ha, dotProduct_comm]
      rfl
    have e6 : h ⬝ᵥ c + h ⬝ᵥ (Q *ᵥ v) = -(R ⬝ᵥ R) - R ⬝ᵥ (Q *ᵥ (v - u)) := by
      have : c = R - Q *ᵥ u := by rw [hR]; simp
      rw [this, hh, mulVec_sub]
      simp only [neg_dotProduct, dotProduct_sub]
      ring
    rw [e5, e6] at hdir
    have h7 := hfirst v hv
    have h8 : 0 ≤ R ⬝ᵥ R := Finset.sum_nonneg fun i _ => mul_self_nonneg _
    exact dotProduct_self_eq_zero.1 (by linarith)
  refine ⟨-u, fun h => ?_, fun j x => ?_, fun j => ?_⟩
  · rw [ridge_expand hs]
    have e : 2 * (h ⬝ᵥ halfGrad KLL gamma y tau) = h ⬝ᵥ c := by rw [hc, dotProduct_smul, smul_eq_mul]
    have e2 : c = -(Q *ᵥ u) := by
      have : c + Q *ᵥ u = 0 := by rw [← hR, hR0]
      exact eq_neg_of_add_eq_zero_left this
    rw [e, e2, dotProduct_neg, dotProduct_mulVec]
    congr 2
    simp only [dotProduct, Pi.neg_apply, ← Finset.sum_neg_distrib]
    exact Finset.sum_congr rfl fun j _ => by ring
  · have := slope_below (hw j) (hu.1 j) (hu.2 j) x
    simp only [Pi.neg_apply, neg_mul, sub_neg_eq_add]
    exact this
  · rw [Pi.neg_apply, abs_neg]
    exact slope_abs (hw j) (hu.1 j) (hu.2 j)

/-! ## Rounds -/

/-- What both kinds of rounds do. -/
structure GoodRound (KLL : Matrix ι ι ℝ) (Q : Matrix ι κ ℝ) (gamma rho : ℝ) (w : κ → ℝ) (y : ι → ℝ) (s s' : Admm ι κ) : Prop where
  tau : admmMat KLL Q gamma rho *ᵥ s'.tau = admmRhs KLL Q rho y s.z s.delta
  z : ∀ j x, (w j + rho / 2) * s'.z j ^ 2 + 2 * w j * |s'.z j| - 2 * ((rho * (s'.tau ᵥ* Q) j - s.delta j) / 2) * s'.z j ≤
    (w j + rho / 2) * x ^ 2 + 2 * w j * |x| - 2 * ((rho * (s'.tau ᵥ* Q) j - s.delta j) / 2) * x
  delta : ∀ j, s'.delta j = s.delta j + rho * (s'.z j - (s'.tau ᵥ* Q) j)

section
variable {KLL : Matrix ι ι ℝ} {Q : Matrix ι κ ℝ} {gamma rho : ℝ} {w : κ → ℝ} {y : ι → ℝ}

theorem good_bmdr (hs : KLLᵀ = KLL) (hp : ∀ v, 0 ≤ v ⬝ᵥ KLL *ᵥ v) (hg : 0 ≤ gamma) (hr : 0 < rho)
    {pinv : Matrix ι ι ℝ → Matrix ι ι ℝ} (hG : ∀ A, Spec.IsGeneralisedInverse A (pinv A)) (s : Admm ι κ) :
    GoodRound KLL Q gamma rho (fun _ => 1) y s (bmdrRound pinv KLL Q gamma rho y s) := by
  refine ⟨normal_equations hs hp Q hg hr (hG _) y s.z s.delta, fun j x => ?_, fun j => rfl⟩
  obtain ⟨c1, c2, c3⟩ := zStep_cases (rho := rho) (t := ((bmdrRound pinv KLL Q gamma rho y s).tau ᵥ* Q) j) (delta := s.delta j) hr.le
  exact soft_min (c := 1 + rho / 2) (w := 1) (by linarith) (by norm_num) c1 c2 c3 x

theorem good_spal (hs : KLLᵀ = KLL) (hp : ∀ v, 0 ≤ v ⬝ᵥ KLL *ᵥ v) (hg : 0 ≤ gamma) (hr : 0 < rho) (hw : ∀ j, 0 ≤ w j)
    {pinv : Matrix ι ι ℝ → Matrix ι ι ℝ} (hG : ∀ A, Spec.IsGeneralisedInverse A (pinv A)) (s : Admm ι κ) :
    GoodRound KLL Q gamma rho w y s (spalRound pinv KLL Q gamma rho w y s) := by
  refine ⟨spal_normal hs hp Q hg hr hG y s.z s.delta, fun j x => ?_, fun j => rfl⟩
  obtain ⟨c1, c2, c3⟩ := spalZStep_cases (rho := rho) (w := w j) (t := ((spalRound pinv KLL Q gamma rho w y s).tau ᵥ* Q) j) (delta := s.delta j) hr (hw j)
  exact soft_min (c := w j + rho / 2) (w := w j) (by linarith [hw j]) (hw j) c1 c2 c3 x

theorem GoodRound.slope {s s' : Admm ι κ} (h : GoodRound KLL Q gamma rho w y s s') (hw : ∀ j, 0 ≤ w j) (j : κ) (x : ℝ) :
    w j * (s'.z j ^ 2 + 2 * |s'.z j|) - s'.delta j * (x - s'.z j) + w j * (x - s'.z j) ^ 2 ≤ w j * (x ^ 2 + 2 * |x|) := by
  rw [h.delta j]
  exact strong_subgradient (hw j) (h.z j) x

theorem quad_neg (h : ι → ℝ) : quad KLL gamma (-h) = quad KLL gamma h := by
  unfold quad
  simp [mulVec_neg]

/-- The multiplier that belongs to a best model. -/
structure IsMultiplier (KLL : Matrix ι ι ℝ) (Q : Matrix ι κ ℝ) (gamma : ℝ) (w : κ → ℝ) (y tauS : ι → ℝ) (dS : κ → ℝ) : Prop where
  ridge : ∀ h, Spec.ridgeLoss KLL gamma y (tauS + h) = Spec.ridgeLoss KLL gamma y tauS + ∑ j, dS j * (h ᵥ* Q) j + quad KLL gamma h
  slope : ∀ j x, w j * ((tauS ᵥ* Q) j ^ 2 + 2 * |(tauS ᵥ* Q) j|) - dS j * (x - (tauS ᵥ* Q) j) + w j * (x - (tauS ᵥ* Q) j) ^ 2 ≤ w j * (x ^ 2 + 2 * |x|)
  bound : ∀ j, |dS j| ≤ 2 * w j * (|(tauS ᵥ* Q) j| + 1)

theorem GoodRound.decrease (hs : KLLᵀ = KLL) (hr : 0 < rho) (hw : ∀ j, 0 ≤ w j) {tauS : ι → ℝ} {dS : κ → ℝ} (hm : IsMultiplier KLL Q gamma w y tauS dS)
    {s s' : Admm ι κ} (h : GoodRound KLL Q gamma rho w y s s') :
    Admm.dist rho dS (tauS ᵥ* Q) s'.delta s'.z + (rho * ∑ j, ((s'.z j - (s'.tau ᵥ* Q) j) - (s'.z j - s.z j)) ^ 2 + 4 * quad KLL gamma (s'.tau - tauS) +
      4 * ∑ j, w j * (s'.z j - (tauS ᵥ* Q) j) ^ 2) ≤ Admm.dist rho dS (tauS ᵥ* Q) s.delta s.z := by
  have := Alipy.Admm.step hr (w := w) (zS := tauS ᵥ* Q) (dS := dS) (z0 := s.z) (d0 := s.delta) (z1 := s'.z) (d1 := s'.delta) (t1 := s'.tau ᵥ* Q)
    (G0 := fun j => w j * ((tauS ᵥ* Q) j ^ 2 + 2 * |(tauS ᵥ* Q) j|)) (G1 := fun j => w j * (s'.z j ^ 2 + 2 * |s'.z j|))
    (fS := Spec.ridgeLoss KLL gamma y tauS) (f1 := Spec.ridgeLoss KLL gamma y s'.tau) (e := quad KLL gamma (s'.tau - tauS))
    (by
      have h1 := ridge_of_normal hs h.tau (tauS - s'.tau)
      rw [add_sub_cancel, ← neg_sub, quad_neg] at h1
      rw [h1]
      congr 2
      refine Finset.sum_congr rfl fun j _ => ?_
      rw [h.delta j, neg_sub, sub_vecMul, Pi.sub_apply]
      ring)
    (by
      have h1 := hm.ridge (s'.tau - tauS)
      rw [add_sub_cancel] at h1
      rw [h1]
      congr 2
      refine Finset.sum_congr rfl fun j _ => ?_
      rw [sub_vecMul, Pi.sub_apply])
    (fun j => h.slope hw j _) (fun j => hm.slope j _) h.delta
  linarith

theorem multiplier_exists (hs : KLLᵀ = KLL) (hw : ∀ j, 0 ≤ w j) {tauS : ι → ℝ} (hmin : Spec.IsBestModel KLL Q gamma w y tauS) :
    ∃ dS, IsMultiplier KLL Q gamma w y tauS dS := by
  obtain ⟨dS, h1, h2, h3⟩ := exists_multiplier hs hw hmin
  exact ⟨dS, h1, h2, h3⟩

/-- What the sums are bounded by when the loop starts as it does. -/
noncomputable def startBound (Q : Matrix ι κ ℝ) (rho : ℝ) (w : κ → ℝ) (tau0 tauS : ι → ℝ) : ℝ :=
  ∑ j, ((2 * w j * (|(tauS ᵥ* Q) j| + 1)) ^ 2 / rho + rho * ((tau0 ᵥ* Q) j - (tauS ᵥ* Q) j) ^ 2)

theorem start_le (hr : 0 < rho) {tauS : ι → ℝ} {dS : κ → ℝ} (hm : IsMultiplier KLL Q gamma w y tauS dS) (tau0 : ι → ℝ) :
    Admm.dist rho dS (tauS ᵥ* Q) (admmStart Q tau0).delta (admmStart Q tau0).z ≤ startBound Q rho w tau0 tauS := by
  unfold Admm.dist startBound admmStart
  refine Finset.sum_le_sum fun j _ => ?_
  simp only [zero_sub, neg_sq]
  have h1 : dS j ^ 2 ≤ (2 * w j * (|(tauS ᵥ* Q) j| + 1)) ^ 2 := sq_le_sq' (by linarith [neg_abs_le (dS j), hm.bound j]) ((le_abs_self _).trans (hm.bound j))
  have := div_le_div_of_nonneg_right h1 hr.le
  linarith

/-- The sequence of rounds. -/
theorem rounds_converge (hs : KLLᵀ = KLL) (hp : ∀ v, 0 ≤ v ⬝ᵥ KLL *ᵥ v) (hg : 0 ≤ gamma) (hr : 0 < rho) (hw : ∀ j, 0 ≤ w j) {tauS : ι → ℝ}
    (hmin : Spec.IsBestModel KLL Q gamma w y tauS) {s : ℕ → Admm ι κ} (h : ∀ k, GoodRound KLL Q gamma rho w y (s k) (s (k + 1))) :
    Tendsto (fun k => Spec.selectionLoss KLL Q gamma w y (s k).tau) atTop (𝓝 (Spec.selectionLoss KLL Q gamma w y tauS)) ∧
    (∀ i, Tendsto (fun k => (KLL *ᵥ (s k).tau) i) atTop (𝓝 ((KLL *ᵥ tauS) i))) ∧
    (∀ j, 0 < w j → Tendsto (fun k => ((s k).tau ᵥ* Q) j) atTop (𝓝 ((tauS ᵥ* Q) j))) := by
  obtain ⟨dS, hm⟩ := multiplier_exists hs hw hmin
  have hq : ∀ v, 0 ≤ quad KLL gamma v := fun v => (Finset.sum_nonneg fun i _ => sq_nonneg _).trans (quad_pos hp hg v)
  -- the terms that tend to zero
  obtain ⟨-, ht1⟩ := Alipy.Admm.tendsto_of_telescope
    (V := fun k => Admm.dist rho dS (tauS ᵥ* Q) (s k).delta (s k).z)
    (a := fun k => rho * ∑ j, (((s (k + 1)).z j - ((s (k + 1)).tau ᵥ* Q) j) - ((s (k + 1)).z j - (s k).z j)) ^ 2 + 4 * quad KLL gamma ((s (k + 1)).tau - tauS) +
      4 * ∑ j, w j * ((s (k + 1)).z j - (tauS ᵥ* Q) j) ^ 2)
    (fun k => Alipy.Admm.dist_nonneg hr _ _ _ _)
    (fun k => by
      have := hq ((s (k + 1)).tau - tauS)
      have : 0 ≤ ∑ j, w j * ((s (k + 1)).z j - (tauS ᵥ* Q) j) ^ 2 := Finset.sum_nonneg fun j _ => mul_nonneg (hw j) (sq_nonneg _)
      have : 0 ≤ rho * ∑ j, (((s (k + 1)).z j - ((s (k + 1)).tau ᵥ* Q) j) - ((s (k + 1)).z j - (s k).z j)) ^ 2 :=
        mul_nonneg hr.le (Finset.sum_nonneg fun j _ => sq_nonneg _)
      linarith)
    (fun k => (h k).decrease hs hr hw hm)
  -- squeeze
  have squeeze : ∀ (c : ℝ) (f : ℕ → ℝ), 0 < c → (∀ k, c * f k ^ 2 ≤ rho * ∑ j, (((s (k + 1)).z j - ((s (k + 1)).tau ᵥ* Q) j) - ((s (k + 1)).z j - (s k).z j)) ^ 2 +
      4 * quad KLL gamma ((s (k + 1)).tau - tauS) + 4 * ∑ j, w j * ((s (k + 1)).z j - (tauS ᵥ* Q) j) ^ 2) → Tendsto f atTop (𝓝 0) := by
    intro c f hc hf
    have h1 : Tendsto (fun k => c * f k ^ 2) atTop (𝓝 0) :=
      tendsto_of_tendsto_of_tendsto_of_le_of_le tendsto_const_nhds ht1 (fun k => mul_nonneg hc.le (sq_nonneg _)) hf
    have h2 : Tendsto (fun k => f k ^ 2) atTop (𝓝 0) := by
      have := h1.const_mul c⁻¹
      rw [mul_zero] at this
      refine this.congr fun k => ?_
      rw [← mul_assoc, inv_mul_cancel₀ hc.ne', one_mul]
    have h3 := (Real.continuous_sqrt.tendsto 0).comp h2
    rw [Real.sqrt_zero] at h3
    have h4 : Tendsto (fun k => |f k|) atTop (𝓝 0) := h3.congr fun k => by simp [Real.sqrt_sq_eq_abs]
    exact (tendsto_zero_iff_abs_tendsto_zero _).2 h4
  have nnq : ∀ k, 0 ≤ 4 * quad KLL gamma ((s (k + 1)).tau - tauS) := fun k => by linarith [hq ((s (k + 1)).tau - tauS)]
  have nnw : ∀ k, 0 ≤ 4 * ∑ j, w j * ((s (k + 1)).z j - (tauS ᵥ* Q) j) ^ 2 := fun k =>
    mul_nonneg (by norm_num) (Finset.sum_nonneg fun j _ => mul_nonneg (hw j) (sq_nonneg _))
  have nnr : ∀ k, 0 ≤ rho * ∑ j, (((s (k + 1)).z j - ((s (k + 1)).tau ᵥ* Q) j) - ((s (k + 1)).z j - (s k).z j)) ^ 2 := fun k =>
    mul_nonneg hr.le (Finset.sum_nonneg fun j _ => sq_nonneg _)
  -- predictions on the labelled examples
  have hK : ∀ i, Tendsto (fun k => (KLL *ᵥ (s k).tau) i) atTop (𝓝 ((KLL *ᵥ tauS) i)) := by
    intro i
    rw [← tendsto_add_atTop_iff_nat 1, ← tendsto_sub_nhds_zero_iff]
    refine squeeze 4 _ (by norm_num) fun k => ?_
    have h1 := quad_pos (KLL := KLL) hp hg ((s (k + 1)).tau - tauS)
    have h2 := Finset.single_le_sum (f := fun i => (KLL *ᵥ ((s (k + 1)).tau - tauS)) i ^ 2) (fun i _ => sq_nonneg _) (Finset.mem_univ i)
    simp only [mulVec_sub, Pi.sub_apply] at h2
    rw [mulVec_sub] at h1
    simp only [Pi.sub_apply] at h1
    linarith [nnr k, nnw k]
  -- the auxiliary variable
  have hz : ∀ j, 0 < w j → Tendsto (fun k => (s (k + 1)).z j - (tauS ᵥ* Q) j) atTop (𝓝 0) := by
    intro j hj
    refine squeeze (4 * w j) _ (by linarith) fun k => ?_
    have h2 := Finset.single_le_sum (f := fun j => w j * ((s (k + 1)).z j - (tauS ᵥ* Q) j) ^ 2) (fun j _ => mul_nonneg (hw j) (sq_nonneg _)) (Finset.mem_univ j)
    linarith [nnr k, nnq k]
  -- the difference of the predictions and the previous auxiliary variable
  have hd : ∀ j, Tendsto (fun k => (s k).z j - ((s (k + 1)).tau ᵥ* Q) j) atTop (𝓝 0) := by
    intro j
    refine squeeze rho _ hr fun k => ?_
    have h2 := Finset.single_le_sum (f := fun j => (((s (k + 1)).z j - ((s (k + 1)).tau ᵥ* Q) j) - ((s (k + 1)).z j - (s k).z j)) ^ 2)
      (fun j _ => sq_nonneg _) (Finset.mem_univ j)
    have e : (s k).z j - ((s (k + 1)).tau ᵥ* Q) j = ((s (k + 1)).z j - ((s (k + 1)).tau ᵥ* Q) j) - ((s (k + 1)).z j - (s k).z j) := by ring
    rw [e]
    have := mul_le_mul_of_nonneg_left h2 hr.le
    linarith [nnq k, nnw k]
  have htt : ∀ j, 0 < w j → Tendsto (fun k => ((s k).tau ᵥ* Q) j) atTop (𝓝 ((tauS ᵥ* Q) j)) := by
    intro j hj
    rw [← tendsto_add_atTop_iff_nat 2]
    have h1 := (tendsto_add_atTop_iff_nat 1).2 (hd j)
    have h2 := ((hz j hj).sub h1).add_const ((tauS ᵥ* Q) j)
    rw [sub_zero, zero_add] at h2
    refine h2.congr fun k => ?_
    ring
  refine ⟨?_, hK, htt⟩
  -- the loss
  have hdS : ∀ j, w j = 0 → dS j = 0 := by
    intro j hj
    have := hm.bound j
    rw [hj, mul_zero, zero_mul] at this
    exact abs_eq_zero.1 (le_antisymm this (abs_nonneg _))
  have hquad : Tendsto (fun k => quad KLL gamma ((s (k + 1)).tau - tauS)) atTop (𝓝 0) := by
    have h1 := ht1.const_mul (1 / 4 : ℝ)
    rw [mul_zero] at h1
    refine tendsto_of_tendsto_of_tendsto_of_le_of_le tendsto_const_nhds h1 (fun k => hq _) fun k => ?_
    linarith [nnr k, nnw k]
  rw [← tendsto_add_atTop_iff_nat 1]
  have hform : ∀ k, Spec.selectionLoss KLL Q gamma w y (s (k + 1)).tau = Spec.ridgeLoss KLL gamma y tauS +
      ∑ j, dS j * (((s (k + 1)).tau ᵥ* Q) j - (tauS ᵥ* Q) j) + quad KLL gamma ((s (k + 1)).tau - tauS) +
        ∑ j, w j * (((s (k + 1)).tau ᵥ* Q) j ^ 2 + 2 * |((s (k + 1)).tau ᵥ* Q) j|) := by
    intro k
    unfold Spec.selectionLoss
    have h1 := hm.ridge ((s (k + 1)).tau - tauS)
    rw [add_sub_cancel] at h1
    rw [h1]
    simp only [sub_vecMul, Pi.sub_apply]
  have hlim : Spec.selectionLoss KLL Q gamma w y tauS = Spec.ridgeLoss KLL gamma y tauS + ∑ j : κ, 0 + 0 + ∑ j, w j * ((tauS ᵥ* Q) j ^ 2 + 2 * |(tauS ᵥ* Q) j|) := by
    unfold Spec.selectionLoss
    simp
  rw [hlim]
  refine Tendsto.congr (fun k => (hform k).symm) ?_
  refine ((tendsto_const_nhds.add (tendsto_finsetSum _ fun j _ => ?_)).add hquad).add (tendsto_finsetSum _ fun j _ => ?_)
  · by_cases hj : w j = 0
    · simp [hdS j hj]
    · have h1 := ((tendsto_add_atTop_iff_nat 1).2 (htt j (lt_of_le_of_ne (hw j) (Ne.symm hj)))).sub_const ((tauS ᵥ* Q) j)
      have h2 := h1.const_mul (dS j)
      rwa [sub_self, mul_zero] at h2
  · by_cases hj : w j = 0
    · simp [hj]
    · have h1 := (tendsto_add_atTop_iff_nat 1).2 (htt j (lt_of_le_of_ne (hw j) (Ne.symm hj)))
      exact (((h1.pow 2).add (h1.abs.const_mul 2)).const_mul (w j))


theorem exists_small {a : ℕ → ℝ} {V : ℝ} {N : ℕ} (hN : 0 < N) (h : ∑ k ∈ Finset.range N, a k ≤ V) : ∃ k < N, a k ≤ V / N := by
  by_contra hc
  push Not at hc
  have h1 : ∑ k ∈ Finset.range N, V / N < ∑ k ∈ Finset.range N, a k :=
    Finset.sum_lt_sum_of_nonempty (Finset.nonempty_range_iff.2 hN.ne') fun k hk => hc k (Finset.mem_range.1 hk)
  rw [Finset.sum_const, Finset.card_range, nsmul_eq_mul] at h1
  have h2 : (N : ℝ) * (V / N) = V := by
    have : (N : ℝ) ≠ 0 := Nat.cast_ne_zero.2 hN.ne'
    field_simp
  linarith

theorem rounds_rate (hs : KLLᵀ = KLL) (hp : ∀ v, 0 ≤ v ⬝ᵥ KLL *ᵥ v) (hg : 0 ≤ gamma) (hr : 0 < rho) (hw : ∀ j, 0 ≤ w j) {tauS tau0 : ι → ℝ}
    (hmin : Spec.IsBestModel KLL Q gamma w y tauS) {s : ℕ → Admm ι κ} (h0 : s 0 = admmStart Q tau0)
    (h : ∀ k, GoodRound KLL Q gamma rho w y (s k) (s (k + 1))) {N : ℕ} (hN : 0 < N) :
    ∃ k < N, ∑ i, ((KLL *ᵥ (s (k + 1)).tau) i - (KLL *ᵥ tauS) i) ^ 2 + ∑ j, w j * ((s (k + 1)).z j - (tauS ᵥ* Q) j) ^ 2 ≤
      startBound Q rho w tau0 tauS / (4 * N) := by
  obtain ⟨dS, hm⟩ := multiplier_exists hs hw hmin
  have hq : ∀ k, ∑ i, ((KLL *ᵥ (s (k + 1)).tau) i - (KLL *ᵥ tauS) i) ^ 2 ≤ quad KLL gamma ((s (k + 1)).tau - tauS) := by
    intro k
    have := quad_pos (KLL := KLL) hp hg ((s (k + 1)).tau - tauS)
    simpa only [mulVec_sub, Pi.sub_apply] using this
  obtain ⟨ht, -⟩ := Alipy.Admm.tendsto_of_telescope
    (V := fun k => Admm.dist rho dS (tauS ᵥ* Q) (s k).delta (s k).z)
    (a := fun k => 4 * (∑ i, ((KLL *ᵥ (s (k + 1)).tau) i - (KLL *ᵥ tauS) i) ^ 2 + ∑ j, w j * ((s (k + 1)).z j - (tauS ᵥ* Q) j) ^ 2))
    (fun k => Alipy.Admm.dist_nonneg hr _ _ _ _)
    (fun k => mul_nonneg (by norm_num) (add_nonneg (Finset.sum_nonneg fun i _ => sq_nonneg _) (Finset.sum_nonneg fun j _ => mul_nonneg (hw j) (sq_nonneg _))))
    (fun k => by
      have h1 := (h k).decrease hs hr hw hm
      have h2 : 0 ≤ rho * ∑ j, (((s (k + 1)).z j - ((s (k + 1)).tau ᵥ* Q) j) - ((s (k + 1)).z j - (s k).z j)) ^ 2 :=
        mul_nonneg hr.le (Finset.sum_nonneg fun j _ => sq_nonneg _)
      linarith [hq k])
  have hV : Admm.dist rho dS (tauS ᵥ* Q) (s 0).delta (s 0).z ≤ startBound Q rho w tau0 tauS := by rw [h0]; exact start_le hr hm tau0
  obtain ⟨k, hk, hle⟩ := exists_small hN ((ht N).trans hV)
  refine ⟨k, hk, ?_⟩
  have e : startBound Q rho w tau0 tauS / (4 * N) = startBound Q rho w tau0 tauS / N / 4 := by rw [div_div, mul_comm]
  rw [e]
  linarith

theorem norm2_lt [Nonempty κ] {v : κ → ℝ} {c : ℝ} (h : ∑ j, v j ^ 2 < Fintype.card κ * (1 / 10000) ^ 2) (hc : 0 ≤ c) :
    norm2 v < Real.sqrt (Fintype.card κ) * (1 / 10000) + c := by
  unfold norm2
  have h1 : Real.sqrt (∑ j, v j ^ 2) < Real.sqrt (Fintype.card κ * (1 / 10000) ^ 2) := Real.sqrt_lt_sqrt (Finset.sum_nonneg fun j _ => sq_nonneg _) h
  rw [Real.sqrt_mul (Nat.cast_nonneg _), Real.sqrt_sq (by norm_num)] at h1
  linarith

theorem rounds_test [Nonempty κ] (hs : KLLᵀ = KLL) (hp : ∀ v, 0 ≤ v ⬝ᵥ KLL *ᵥ v) (hg : 0 ≤ gamma) (hr : 0 < rho) (hw : ∀ j, 0 ≤ w j) {tauS tau0 : ι → ℝ}
    (hmin : Spec.IsBestModel KLL Q gamma w y tauS) {s : ℕ → Admm ι κ} (h0 : s 0 = admmStart Q tau0)
    (h : ∀ k, GoodRound KLL Q gamma rho w y (s k) (s (k + 1))) {N : ℕ}
    (hN : 100000000 * max 1 (rho ^ 2) / (rho * Fintype.card κ) * startBound Q rho w tau0 tauS < N) :
    ∃ k < N, converged Q rho (s (k + 1)) (s (k + 2)) := by
  obtain ⟨dS, hm⟩ := multiplier_exists hs hw hmin
  have hq : ∀ v, 0 ≤ quad KLL gamma v := fun v => (Finset.sum_nonneg fun i _ => sq_nonneg _).trans (quad_pos hp hg v)
  have hdec : ∀ k, Admm.dist rho dS (tauS ᵥ* Q) (s (k + 1)).delta (s (k + 1)).z +
      rho * ∑ j, (((s (k + 1)).z j - ((s (k + 1)).tau ᵥ* Q) j) - ((s (k + 1)).z j - (s k).z j)) ^ 2 ≤ Admm.dist rho dS (tauS ᵥ* Q) (s k).delta (s k).z := by
    intro k
    have h1 := (h k).decrease hs hr hw hm
    have h2 : 0 ≤ ∑ j, w j * ((s (k + 1)).z j - (tauS ᵥ* Q) j) ^ 2 := Finset.sum_nonneg fun j _ => mul_nonneg (hw j) (sq_nonneg _)
    linarith [hq ((s (k + 1)).tau - tauS)]
  obtain ⟨ht, -⟩ := Alipy.Admm.tendsto_of_telescope
    (V := fun k => Admm.dist rho dS (tauS ᵥ* Q) (s (k + 1)).delta (s (k + 1)).z)
    (a := fun k => rho * (∑ j, ((s (k + 2)).z j - ((s (k + 2)).tau ᵥ* Q) j) ^ 2 + ∑ j, ((s (k + 2)).z j - (s (k + 1)).z j) ^ 2))
    (fun k => Alipy.Admm.dist_nonneg hr _ _ _ _)
    (fun k => mul_nonneg hr.le (add_nonneg (Finset.sum_nonneg fun i _ => sq_nonneg _) (Finset.sum_nonneg fun j _ => sq_nonneg _)))
    (fun k => by
      have h1 := hdec (k + 1)
      have h2 : ∑ j, ((s (k + 2)).z j - ((s (k + 2)).tau ᵥ* Q) j) ^ 2 + ∑ j, ((s (k + 2)).z j - (s (k + 1)).z j) ^ 2 ≤
          ∑ j, (((s (k + 2)).z j - ((s (k + 2)).tau ᵥ* Q) j) - ((s (k + 2)).z j - (s (k + 1)).z j)) ^ 2 := by
        rw [← Finset.sum_add_distrib]
        refine Finset.sum_le_sum fun j _ => ?_
        have := Alipy.Admm.cross_nonpos hr (w := w) (z0 := (s (k + 1)).z) (d0 := (s (k + 1)).delta) (z1 := (s (k + 2)).z) (d1 := (s (k + 2)).delta)
          (t1 := (s (k + 2)).tau ᵥ* Q) (G0 := fun j => w j * ((s (k + 1)).z j ^ 2 + 2 * |(s (k + 1)).z j|))
          (G1 := fun j => w j * ((s (k + 2)).z j ^ 2 + 2 * |(s (k + 2)).z j|)) hw (fun j => (h k).slope hw j _) (fun j => (h (k + 1)).slope hw j _)
          (h (k + 1)).delta j
        nlinarith
      have := mul_le_mul_of_nonneg_left h2 hr.le
      linarith)
  have hV0 : Admm.dist rho dS (tauS ᵥ* Q) (s 0).delta (s 0).z ≤ startBound Q rho w tau0 tauS := by rw [h0]; exact start_le hr hm tau0
  have hV : Admm.dist rho dS (tauS ᵥ* Q) (s (0 + 1)).delta (s (0 + 1)).z ≤ startBound Q rho w tau0 tauS := by
    have h1 := hdec 0
    have : 0 ≤ rho * ∑ j, (((s (0 + 1)).z j - ((s (0 + 1)).tau ᵥ* Q) j) - ((s (0 + 1)).z j - (s 0).z j)) ^ 2 :=
      mul_nonneg hr.le (Finset.sum_nonneg fun j _ => sq_nonneg _)
    linarith
  have hB0 : 0 ≤ startBound Q rho w tau0 tauS := (Alipy.Admm.dist_nonneg hr _ _ _ _).trans hV
  have hcard : (0 : ℝ) < Fintype.card κ := Nat.cast_pos.2 Fintype.card_pos
  have hmax : 0 < max 1 (rho ^ 2) := lt_of_lt_of_le zero_lt_one (le_max_left _ _)
  have hNpos : 0 < N := by
    have : (0 : ℝ) < N := lt_of_le_of_lt (by positivity) hN
    exact_mod_cast this
  obtain ⟨k, hk, hle⟩ := exists_small hNpos ((ht N).trans hV)
  refine ⟨k, hk, ?_⟩
  have hNr : (0 : ℝ) < N := Nat.cast_pos.2 hNpos
  have hsmall : max 1 (rho ^ 2) * (∑ j, ((s (k + 2)).z j - ((s (k + 2)).tau ᵥ* Q) j) ^ 2 + ∑ j, ((s (k + 2)).z j - (s (k + 1)).z j) ^ 2) <
      Fintype.card κ * (1 / 10000) ^ 2 := by
    have h1 : rho * (∑ j, ((s (k + 2)).z j - ((s (k + 2)).tau ᵥ* Q) j) ^ 2 + ∑ j, ((s (k + 2)).z j - (s (k + 1)).z j) ^ 2) * N ≤ startBound Q rho w tau0 tauS := by
      rwa [le_div_iff₀ hNr] at hle
    rw [div_mul_eq_mul_div, div_lt_iff₀ (by positivity)] at hN
    set X := ∑ j, ((s (k + 2)).z j - ((s (k + 2)).tau ᵥ* Q) j) ^ 2 + ∑ j, ((s (k + 2)).z j - (s (k + 1)).z j) ^ 2
    have h2 : 100000000 * max 1 (rho ^ 2) * (rho * X * N) ≤ 100000000 * max 1 (rho ^ 2) * startBound Q rho w tau0 tauS :=
      mul_le_mul_of_nonneg_left h1 (by positivity)
    have h3 : (rho * N) * (100000000 * (max 1 (rho ^ 2) * X)) < (rho * N) * Fintype.card κ := by nlinarith
    have h4 := lt_of_mul_lt_mul_left h3 (by positivity)
    linarith
  have hr2 : 0 ≤ ∑ j, ((s (k + 2)).z j - ((s (k + 2)).tau ᵥ* Q) j) ^ 2 := Finset.sum_nonneg fun j _ => sq_nonneg _
  have hz2 : 0 ≤ ∑ j, ((s (k + 2)).z j - (s (k + 1)).z j) ^ 2 := Finset.sum_nonneg fun j _ => sq_nonneg _
  have m1 := mul_le_mul_of_nonneg_right (le_max_left 1 (rho ^ 2)) hr2
  have m2 := mul_le_mul_of_nonneg_right (le_max_right 1 (rho ^ 2)) hz2
  have m3 := mul_nonneg hmax.le hr2
  have m4 := mul_nonneg hmax.le hz2
  constructor
  · refine norm2_lt ?_ (mul_nonneg (by norm_num) (le_max_of_le_left (Real.sqrt_nonneg _)))
    have e : ∑ j, (((s (k + 2)).tau ᵥ* Q) j - (s (k + 2)).z j) ^ 2 = ∑ j, ((s (k + 2)).z j - ((s (k + 2)).tau ᵥ* Q) j) ^ 2 :=
      Finset.sum_congr rfl fun j _ => by ring
    rw [e]
    linarith
  · refine norm2_lt ?_ (mul_nonneg (by norm_num) (Real.sqrt_nonneg _))
    have e : ∑ j, (-rho * ((s (k + 2)).z j - (s (k + 1)).z j)) ^ 2 = rho ^ 2 * ∑ j, ((s (k + 2)).z j - (s (k + 1)).z j) ^ 2 := by
      rw [Finset.mul_sum]
      exact Finset.sum_congr rfl fun j _ => by ring
    rw [e]
    linarith

theorem loop_ends {round : Admm ι κ → Admm ι κ} : ∀ (m : ℕ) (s : Admm ι κ), converged Q rho (round^[m] s) (round^[m + 1] s) →
    ∃ m' ≤ m, converged Q rho (round^[m'] s) (round^[m' + 1] s) ∧ ∀ n, m' < n → admmLoop Q rho round n s = round^[m' + 1] s := by
  intro m
  induction m with
  | zero =>
    intro s hc
    refine ⟨0, le_refl _, hc, fun n hn => ?_⟩
    obtain ⟨n, rfl⟩ := Nat.exists_eq_add_of_lt hn
    have hc' : converged Q rho s (round s) := hc
    rw [show 0 + n + 1 = n + 1 by omega]
    unfold admmLoop
    rw [if_pos hc']
    rfl
  | succ m ih =>
    intro s hc
    by_cases h1 : converged Q rho s (round s)
    · refine ⟨0, Nat.zero_le _, h1, fun n hn => ?_⟩
      obtain ⟨n, rfl⟩ := Nat.exists_eq_add_of_lt hn
      rw [show 0 + n + 1 = n + 1 by omega]
      unfold admmLoop
      rw [if_pos h1]
      rfl
    · obtain ⟨m', hm', hc', hn'⟩ := ih (round s) (by simpa only [Function.iterate_succ_apply] using hc)
      refine ⟨m' + 1, by omega, by simpa only [Function.iterate_succ_apply] using hc', fun n hn => ?_⟩
      obtain ⟨n, rfl⟩ : ∃ k, n = k + 1 := ⟨n - 1, by omega⟩
      conv_lhs => unfold admmLoop
      rw [if_neg h1, hn' n (by omega)]
      rfl

/-! ## C111 -/

/-- **C111** (BMDR): whatever the variables are before the loop, with every round the loss of the model approaches the smallest possible one, and its predictions on the labelled and
on the selected examples approach those of every best model. -/
theorem C111_bmdr_converges (hs : KLLᵀ = KLL) (hp : ∀ v, 0 ≤ v ⬝ᵥ KLL *ᵥ v) (hg : 0 ≤ gamma) (hr : 0 < rho)
    {pinv : Matrix ι ι ℝ → Matrix ι ι ℝ} (hG : ∀ A, Spec.IsGeneralisedInverse A (pinv A)) (s : Admm ι κ) {best : ι → ℝ}
    (hmin : Spec.IsBestModel KLL Q gamma (fun _ => 1) y best) :
    Tendsto (fun k => Spec.selectionLoss KLL Q gamma (fun _ => 1) y ((bmdrRound pinv KLL Q gamma rho y)^[k] s).tau) atTop
      (𝓝 (Spec.selectionLoss KLL Q gamma (fun _ => 1) y best)) ∧
    (∀ i, Tendsto (fun k => (KLL *ᵥ ((bmdrRound pinv KLL Q gamma rho y)^[k] s).tau) i) atTop (𝓝 ((KLL *ᵥ best) i))) ∧
    (∀ j, Tendsto (fun k => (((bmdrRound pinv KLL Q gamma rho y)^[k] s).tau ᵥ* Q) j) atTop (𝓝 ((best ᵥ* Q) j))) := by
  obtain ⟨h1, h2, h3⟩ := rounds_converge hs hp hg hr (w := fun _ => 1) (fun _ => zero_le_one) hmin (s := fun k => (bmdrRound pinv KLL Q gamma rho y)^[k] s)
    (fun k => by rw [Function.iterate_succ_apply']; exact good_bmdr hs hp hg hr hG _)
  exact ⟨h1, h2, fun j => h3 j zero_lt_one⟩

/-- **C111** (SPAL): the same with the weights of the examples (for the predictions: where the weight is not zero). -/
theorem C111_spal_converges (hs : KLLᵀ = KLL) (hp : ∀ v, 0 ≤ v ⬝ᵥ KLL *ᵥ v) (hg : 0 ≤ gamma) (hr : 0 < rho) (hw : ∀ j, 0 ≤ w j)
    {pinv : Matrix ι ι ℝ → Matrix ι ι ℝ} (hG : ∀ A, Spec.IsGeneralisedInverse A (pinv A)) (s : Admm ι κ) {best : ι → ℝ}
    (hmin : Spec.IsBestModel KLL Q gamma w y best) :
    Tendsto (fun k => Spec.selectionLoss KLL Q gamma w y ((spalRound pinv KLL Q gamma rho w y)^[k] s).tau) atTop (𝓝 (Spec.selectionLoss KLL Q gamma w y best)) ∧
    (∀ i, Tendsto (fun k => (KLL *ᵥ ((spalRound pinv KLL Q gamma rho w y)^[k] s).tau) i) atTop (𝓝 ((KLL *ᵥ best) i))) ∧
    (∀ j, 0 < w j → Tendsto (fun k => (((spalRound pinv KLL Q gamma rho w y)^[k] s).tau ᵥ* Q) j) atTop (𝓝 ((best ᵥ* Q) j))) :=
  rounds_converge hs hp hg hr hw hmin (s := fun k => (spalRound pinv KLL Q gamma rho w y)^[k] s)
    (fun k => by rw [Function.iterate_succ_apply']; exact good_spal hs hp hg hr hw hG _)

/-- **C111** (how fast): among the first `N` rounds there is one after which the squared distance of the predictions from those of a best model is at most a constant divided
by `N`, both for BMDR and for SPAL. -/
theorem C111_rate (hs : KLLᵀ = KLL) (hp : ∀ v, 0 ≤ v ⬝ᵥ KLL *ᵥ v) (hg : 0 ≤ gamma) (hr : 0 < rho) (hw : ∀ j, 0 ≤ w j)
    {pinv : Matrix ι ι ℝ → Matrix ι ι ℝ} (hG : ∀ A, Spec.IsGeneralisedInverse A (pinv A)) {best tau0 : ι → ℝ} (hmin : Spec.IsBestModel KLL Q gamma w y best)
    {round : Admm ι κ → Admm ι κ} (hround : round = spalRound pinv KLL Q gamma rho w y ∨ (w = fun _ => 1) ∧ round = bmdrRound pinv KLL Q gamma rho y)
    {N : ℕ} (hN : 0 < N) :
    ∃ k, 0 < k ∧ k ≤ N ∧ ∑ i, ((KLL *ᵥ (round^[k] (admmStart Q tau0)).tau) i - (KLL *ᵥ best) i) ^ 2 + ∑ j, w j * ((round^[k] (admmStart Q tau0)).z j - (best ᵥ* Q) j) ^ 2 ≤
      (∑ j, ((2 * w j * (|(best ᵥ* Q) j| + 1)) ^ 2 / rho + rho * ((tau0 ᵥ* Q) j - (best ᵥ* Q) j) ^ 2)) / (4 * N) := by
  have hgood : ∀ s, GoodRound KLL Q gamma rho w y s (round s) := by
    intro s
    rcases hround with rfl | ⟨rfl, rfl⟩
    · exact good_spal hs hp hg hr hw hG s
    · exact good_bmdr hs hp hg hr hG s
  obtain ⟨k, hk, h⟩ := rounds_rate hs hp hg hr hw hmin (s := fun k => round^[k] (admmStart Q tau0)) rfl
    (fun k => by rw [Function.iterate_succ_apply']; exact hgood _) hN
  exact ⟨k + 1, by omega, by omega, h⟩

/-- **C111** (end): the test for convergence is met after a number of rounds that does not depend on `MAX_ITER` (the number of steps `n`), and at the latest after the number
given by the distance of the first model from a best one. -/
theorem C111_ends [Nonempty κ] (hs : KLLᵀ = KLL) (hp : ∀ v, 0 ≤ v ⬝ᵥ KLL *ᵥ v) (hg : 0 ≤ gamma) (hr : 0 < rho) (hw : ∀ j, 0 ≤ w j)
    {pinv : Matrix ι ι ℝ → Matrix ι ι ℝ} (hG : ∀ A, Spec.IsGeneralisedInverse A (pinv A)) {best tau0 : ι → ℝ} (hmin : Spec.IsBestModel KLL Q gamma w y best)
    {round : Admm ι κ → Admm ι κ} (hround : round = spalRound pinv KLL Q gamma rho w y ∨ (w = fun _ => 1) ∧ round = bmdrRound pinv KLL Q gamma rho y)
    {N : ℕ} (hN : 100000000 * max 1 (rho ^ 2) / (rho * Fintype.card κ) *
      (∑ j, ((2 * w j * (|(best ᵥ* Q) j| + 1)) ^ 2 / rho + rho * ((tau0 ᵥ* Q) j - (best ᵥ* Q) j) ^ 2)) < N) :
    ∃ m ≤ N, converged Q rho (round^[m] (admmStart Q tau0)) (round^[m + 1] (admmStart Q tau0)) ∧
      ∀ n, m < n → admmLoop Q rho round n (admmStart Q tau0) = round^[m + 1] (admmStart Q tau0) := by
  have hgood : ∀ s, GoodRound KLL Q gamma rho w y s (round s) := by
    intro s
    rcases hround with rfl | ⟨rfl, rfl⟩
    · exact good_spal hs hp hg hr hw hG s
    · exact good_bmdr hs hp hg hr hG s
  obtain ⟨k, hk, h⟩ := rounds_test hs hp hg hr hw hmin (s := fun k => round^[k] (admmStart Q tau0)) rfl
    (fun k => by rw [Function.iterate_succ_apply']; exact hgood _) hN
  obtain ⟨m, hm, h1, h2⟩ := loop_ends (k + 1) _ h
  exact ⟨m, by omega, h1, h2⟩

end

/-- One labelled example with label 4 and one selected example with the same features: 1 is the best model, and the rounds approach it from 0. -/
example : Spec.IsBestModel (1 : Matrix (Fin 1) (Fin 1) ℝ) (1 : Matrix (Fin 1) (Fin 1) ℝ) 1 (fun _ => 1) (fun _ => 4) (fun _ => 1) ∧
    Tendsto (fun k => (((bmdrRound (fun A => Matrix.of fun _ _ => (A 0 0)⁻¹) (1 : Matrix (Fin 1) (Fin 1) ℝ) (1 : Matrix (Fin 1) (Fin 1) ℝ) 1 2 (fun _ => 4))^[k]
      (admmStart 1 0)).tau ᵥ* (1 : Matrix (Fin 1) (Fin 1) ℝ)) 0) atTop (𝓝 1) := by
  have hb : Spec.IsBestModel (1 : Matrix (Fin 1) (Fin 1) ℝ) (1 : Matrix (Fin 1) (Fin 1) ℝ) 1 (fun _ => 1) (fun _ => 4) (fun _ => 1) := by
    intro tau'
    unfold Spec.selectionLoss Spec.ridgeLoss
    simp [dotProduct]
    nlinarith [sq_nonneg (tau' 0 - 1), le_abs_self (tau' 0)]
  refine ⟨hb, ?_⟩
  have := (C111_bmdr_converges (KLL := (1 : Matrix (Fin 1) (Fin 1) ℝ)) (Q := (1 : Matrix (Fin 1) (Fin 1) ℝ)) (gamma := 1) (rho := 2) (y := fun _ => 4)
    (by simp) (by intro v; simp [dotProduct]; exact mul_self_nonneg _) (by norm_num) (by norm_num) (pinv := fun A => Matrix.of fun _ _ => (A 0 0)⁻¹)
    (by
      intro A
      unfold Spec.IsGeneralisedInverse
      ext i j
      fin_cases i; fin_cases j
      simp [Matrix.mul_apply]) (admmStart 1 0) hb).2.2 0
  simpa using this

end Alipy.Bmdr

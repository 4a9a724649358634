import Verif.Model.Afasmc
import Verif.Spec.Afasmc
import Verif.Proof.Afasmc
import Verif.Props.Completion
import Mathlib.Analysis.Matrix.Spectrum
import Mathlib.Algebra.Order.Star.Real
import Mathlib.Topology.Order.Compact
import Mathlib.Topology.MetricSpace.ProperSpace

/-! # C109: supervised matrix completion approaches the optimum of its objective -/
namespace Alipy.Afasmc
open Matrix Spec AfasmcProof Features

set_option linter.unusedSectionVars false
set_option linter.unusedSimpArgs false

variable {m n : Type} [Fintype m] [Fintype n] [DecidableEq n]

/-! ## `_svd_threshold` -/

theorem svd_form {eig : Matrix n n ℝ → (n → ℝ) × Matrix n n ℝ} {M : Matrix m n ℝ} {tau : ℝ} (ht : 0 ≤ tau) (hD : ∀ i, 0 ≤ (eig (Mᵀ * M)).1 i) :
    svdThreshold eig M tau =
      (dy (fun i => if (eig (Mᵀ * M)).1 i = 0 then 0 else (1 / √((eig (Mᵀ * M)).1 i)) • (M *ᵥ fun k => (eig (Mᵀ * M)).2 k i))
        (fun i => if (eig (Mᵀ * M)).1 i = 0 then 0 else fun k => (eig (Mᵀ * M)).2 k i) (fun i => max 0 (√((eig (Mᵀ * M)).1 i) - tau)),
        ∑ i, max 0 (√((eig (Mᵀ * M)).1 i) - tau)) := by
  unfold svdThreshold
  generalize (eig (Mᵀ * M)).1 = D at *
  generalize (eig (Mᵀ * M)).2 = V at *
  have h1 : ∀ i, √(if D i < 0 then 0 else D i) = √(D i) := fun i => by rw [if_neg (not_lt.2 (hD i))]
  simp only [h1]
  refine Prod.ext ?_ rfl
  simp only
  ext a b
  simp only [dy, Matrix.sum_apply, Matrix.smul_apply, vecMulVec_apply, smul_eq_mul]
  have h2 : (V * diagonal fun i => if √(D i) ≠ 0 then 1 / √(D i) else √(D i)) * (diagonal (fun i => max 0 (√(D i) - tau)) * Vᵀ) =
      V * (diagonal (fun i => (if √(D i) ≠ 0 then 1 / √(D i) else √(D i)) * max 0 (√(D i) - tau)) * Vᵀ) := by
    rw [Matrix.mul_assoc, ← Matrix.mul_assoc (diagonal _), diagonal_mul_diagonal]
  rw [h2, ← Matrix.mul_assoc, ← Matrix.mul_assoc, Matrix.mul_apply]
  refine Finset.sum_congr rfl fun i _ => ?_
  rw [mul_diagonal, transpose_apply, Matrix.mul_apply]
  by_cases hi : D i = 0
  · simp [hi]
  · have : √(D i) ≠ 0 := fun h => hi ((Real.sqrt_eq_zero (hD i)).1 h)
    simp only [this, hi, if_false, ne_eq, not_false_iff, if_true, Pi.smul_apply, smul_eq_mul, mulVec, dotProduct]
    ring

/-- C109: `_svd_threshold(M, tau)` returns the solution of the proximal problem of the nuclear norm, uniquely determined (the last term of the left side), with the nuclear norm of that solution. Assumed is what
`np.linalg.eig` promises, and that eigenvectors of a multiple eigenvalue other than 0 are orthogonal. -/
theorem C109_threshold_partial (eig : Matrix n n ℝ → (n → ℝ) × Matrix n n ℝ) (M : Matrix m n ℝ) (tau : ℝ) (ht : 0 ≤ tau)
    (he : IsEig (Mᵀ * M) (eig (Mᵀ * M)).1 (eig (Mᵀ * M)).2) (ho : OrthogonalIfEqual (eig (Mᵀ * M)).1 (eig (Mᵀ * M)).2) :
    (svdThreshold eig M tau).2 = nuclear (svdThreshold eig M tau).1 ∧
      ∀ Z', frob ((svdThreshold eig M tau).1 - M) ((svdThreshold eig M tau).1 - M) / 2 + tau * nuclear (svdThreshold eig M tau).1 +
        frob (Z' - (svdThreshold eig M tau).1) (Z' - (svdThreshold eig M tau).1) / 2 ≤ frob (Z' - M) (Z' - M) / 2 + tau * nuclear Z' := by
  obtain ⟨hD, hfe, hfu, hM⟩ := eig_fam he ho
  rw [svd_form ht hD]
  have hs0 : ∀ i, (if (eig (Mᵀ * M)).1 i = 0 then (0 : ℝ) else 1) = 0 → √((eig (Mᵀ * M)).1 i) = 0 := by
    intro i hi
    by_cases h : (eig (Mᵀ * M)).1 i = 0
    · simp [h]
    · simp [h] at hi
  constructor
  · simp only
    rw [nuclear_dy hfu hfe (fun i => le_max_left _ _)]
    intro i hi
    rw [hs0 i hi]
    exact max_eq_left (by linarith)
  · intro Z'
    have := prox_dy hfu hfe (fun i => Real.sqrt_nonneg _) hs0 ht Z'
    rw [← hM] at this
    exact this

/-- The nuclear norm is the sum of the singular values. -/
theorem nuclear_eq_sum {M : Matrix m n ℝ} {D : n → ℝ} {V : Matrix n n ℝ} (he : IsEig (Mᵀ * M) D V) (ho : OrthogonalIfEqual D V) : nuclear M = ∑ i, √(D i) := by
  obtain ⟨hD, hfe, hfu, hM⟩ := eig_fam he ho
  conv_lhs => rw [hM]
  refine nuclear_dy hfu hfe (fun i => Real.sqrt_nonneg _) fun i hi => ?_
  by_cases h : D i = 0
  · simp [h]
  · simp [h] at hi

/-! ## The smooth part -/

/-- What a problem made by `prob` fulfils. -/
structure Good (p : Prob m n) : Prop where
  mask : ∀ i j, p.mask i j * p.mask i j = p.mask i j
  xo : ∀ i j, p.mask i j * p.Xo i j = p.Xo i j
  l1 : 0 ≤ p.l1
  l2 : 0 ≤ p.l2

/-- A bound for the curvature of the smooth part. -/
def lip (p : Prob m n) : ℝ := 1 + 2 * p.l2 * (p.w ⬝ᵥ p.w)

theorem ineqL_eq (p : Prob m n) (Z : Matrix m n ℝ) :
    ineqL p Z = frob (masked p Z - p.Xo) (masked p Z - p.Xo) / 2 + (residual p Z ⬝ᵥ residual p Z) * p.l2 := by
  unfold ineqL
  rw [Real.sq_sqrt (Finset.sum_nonneg fun _ _ => Finset.sum_nonneg fun _ _ => sq_nonneg _)]
  simp only [frob, dotProduct, Matrix.sub_apply, pow_two]

/-- The gradient at `Y`. -/
noncomputable def gradAt (p : Prob m n) (Y : Matrix m n ℝ) : Matrix m n ℝ := masked p Y - p.Xo + (2 * p.l2) • vecMulVec (residual p Y) p.w

theorem masked_sub (p : Prob m n) (A B : Matrix m n ℝ) : masked p (A - B) = masked p A - masked p B := by
  ext i j; simp [masked, sub_mul]

theorem expand {p : Prob m n} (hp : Good p) (Y Z : Matrix m n ℝ) :
    ineqL p Z = ineqL p Y + frob (gradAt p Y) (Z - Y) + frob (masked p (Z - Y)) (masked p (Z - Y)) / 2 + (((Z - Y) *ᵥ p.w) ⬝ᵥ ((Z - Y) *ᵥ p.w)) * p.l2 := by
  rw [ineqL_eq, ineqL_eq, gradAt, frob_add_left, frob_smul_left, frob_vecMulVec]
  have hr : residual p Z = residual p Y + (Z - Y) *ᵥ p.w := by
    ext i; simp only [residual, sub_mulVec, Pi.add_apply, Pi.sub_apply]; ring
  have hm : masked p Z - p.Xo = (masked p Y - p.Xo) + masked p (Z - Y) := by
    rw [masked_sub]; abel
  have hc : frob (masked p Y - p.Xo) (masked p (Z - Y)) = frob (masked p Y - p.Xo) (Z - Y) := by
    simp only [frob]
    refine Finset.sum_congr rfl fun i _ => Finset.sum_congr rfl fun j _ => ?_
    simp only [masked, Matrix.sub_apply]
    linear_combination (Y i j * (Z i j - Y i j)) * hp.mask i j - (Z i j - Y i j) * hp.xo i j
  rw [hr, hm]
  simp only [frob_add_left, frob_add_right, add_dotProduct, dotProduct_add]
  rw [frob_comm (masked p (Z - Y)) (masked p Y - p.Xo), hc, dotProduct_comm ((Z - Y) *ᵥ p.w) (residual p Y)]
  ring

theorem remainder_nonneg {p : Prob m n} (hp : Good p) (D : Matrix m n ℝ) : 0 ≤ frob (masked p D) (masked p D) / 2 + ((D *ᵥ p.w) ⬝ᵥ (D *ᵥ p.w)) * p.l2 := by
  have h1 := frob_self_nonneg (masked p D)
  have h2 := mul_nonneg (dot_self_nonneg (D *ᵥ p.w)) hp.l2
  linarith

theorem mulVec_norm_le (D : Matrix m n ℝ) (w : n → ℝ) : (D *ᵥ w) ⬝ᵥ (D *ᵥ w) ≤ (w ⬝ᵥ w) * frob D D := by
  simp only [frob, Finset.mul_sum]
  rw [dotProduct]
  refine Finset.sum_le_sum fun i _ => ?_
  have := dot_cs (D i) w
  simp only [mulVec]
  rw [← Finset.mul_sum]
  calc _ = (D i ⬝ᵥ w) ^ 2 := by rw [pow_two]
    _ ≤ (D i ⬝ᵥ D i) * (w ⬝ᵥ w) := this
    _ = _ := by rw [mul_comm]; rfl

theorem remainder_le {p : Prob m n} (hp : Good p) (D : Matrix m n ℝ) :
    frob (masked p D) (masked p D) / 2 + ((D *ᵥ p.w) ⬝ᵥ (D *ᵥ p.w)) * p.l2 ≤ lip p / 2 * frob D D := by
  have h1 : frob (masked p D) (masked p D) ≤ frob D D := by
    refine Finset.sum_le_sum fun i _ => Finset.sum_le_sum fun j _ => ?_
    have h := hp.mask i j
    have : p.mask i j = 0 ∨ p.mask i j = 1 := by
      have : p.mask i j * (p.mask i j - 1) = 0 := by linarith
      rcases mul_eq_zero.1 this with h | h
      · exact .inl h
      · exact .inr (by linarith)
    rcases this with h | h <;> simp [masked, h]
    exact mul_self_nonneg _
  have h2 := mul_le_mul_of_nonneg_right (mulVec_norm_le D p.w) hp.l2
  unfold lip
  nlinarith

theorem lip_pos {p : Prob m n} (hp : Good p) : 1 ≤ lip p := by
  have := mul_nonneg hp.l2 (dot_self_nonneg p.w)
  unfold lip; linarith

/-! ## The state -/

/-- What holds between the variables at the start of each step. -/
structure Inv (p : Prob m n) (s : St m n) : Prop where
  P0 : s.P0 = masked p s.Z0
  P1 : s.P1 = masked p s.Z1
  th0 : 0 < s.th0
  th1 : 0 < s.th1
  th1_le : s.th1 ≤ 1
  L : 2 ≤ s.L

theorem inv_init (p : Prob m n) : Inv p St.init := by
  have : masked p (0 : Matrix m n ℝ) = 0 := by ext i j; simp [masked]
  exact ⟨this.symm, this.symm, one_pos, one_pos, le_refl _, le_refl _⟩

theorem gradPart_eq {p : Prob m n} {s : St m n} (h : Inv p s) : s.gradPart p = masked p s.Y - p.Xo := by
  unfold St.gradPart
  rw [h.P0, h.P1]
  ext i j
  simp only [St.Y, masked, Matrix.sub_apply, Matrix.add_apply, Matrix.smul_apply, smul_eq_mul]
  ring

theorem grad_eq {p : Prob m n} {s : St m n} (h : Inv p s) : s.grad p = gradAt p s.Y := by
  rw [St.grad, gradPart_eq h, gradAt]

theorem dotAll_eq (A B : Matrix m n ℝ) : dotAll A B = frob A B := rfl

theorem ineqR_eq {p : Prob m n} {s : St m n} (h : Inv p s) (L : ℝ) (Z : Matrix m n ℝ) :
    ineqR p s L Z = ineqL p s.Y + frob (gradAt p s.Y) (Z - s.Y) + L / 2 * frob (Z - s.Y) (Z - s.Y) := by
  rw [ineqR, ineqRtemp, ineqL_eq, dotAll_eq, dotAll_eq, grad_eq h, gradPart_eq h, frob_sub_right Z s.Y]
  have h1 : ∑ i, ∑ j, (masked p s.Y - p.Xo) i j ^ 2 = frob (masked p s.Y - p.Xo) (masked p s.Y - p.Xo) := by simp only [frob, pow_two]
  have h2 : ∑ i, residual p s.Y i ^ 2 = residual p s.Y ⬝ᵥ residual p s.Y := by simp only [dotProduct, pow_two]
  have h3 : ∑ i, ∑ j, (Z i j - s.Y i j) ^ 2 = frob (Z - s.Y) (Z - s.Y) := by simp only [frob, pow_two, Matrix.sub_apply]
  rw [h1, h2, h3]
  ring

theorem not_too_big {p : Prob m n} (hp : Good p) {s : St m n} (h : Inv p s) {L : ℝ} (hL : lip p ≤ L) (Z : Matrix m n ℝ) : ineqL p Z ≤ ineqR p s L Z := by
  rw [ineqR_eq h, expand hp s.Y Z]
  have h1 := remainder_le hp (Z - s.Y)
  have h2 := mul_le_mul_of_nonneg_right hL (frob_self_nonneg (Z - s.Y))
  nlinarith

theorem search_ends (eig : Matrix n n ℝ → (n → ℝ) × Matrix n n ℝ) {p : Prob m n} (hp : Good p) {s : St m n} (h : Inv p s) :
    ∀ (fuel : Nat) (L : ℝ), 0 < L → lip p ≤ L * 2 ^ fuel →
      ∃ L', search eig p s fuel L = some (L', trial eig p s L') ∧ L ≤ L' ∧ L' ≤ max L (2 * lip p) ∧ ineqL p (trial eig p s L').1 ≤ ineqR p s L' (trial eig p s L').1
  | 0, L, _, hl => by
    have := not_too_big hp h (by simpa using hl) (trial eig p s L).1
    exact ⟨L, by simp only [search]; rw [if_neg (not_lt.2 this)], le_refl _, le_max_left _ _, this⟩
  | fuel + 1, L, hL0, hl => by
    by_cases hc : ineqL p (trial eig p s L).1 > ineqR p s L (trial eig p s L).1
    · have hlt : L < lip p := by
        by_contra hn
        exact absurd (not_too_big hp h (not_lt.1 hn) (trial eig p s L).1) (not_le.2 hc)
      obtain ⟨L', h1, h2, h3, h4⟩ := search_ends eig hp h fuel (L * 2) (by linarith) (by rw [pow_succ] at hl; linarith)
      refine ⟨L', by simp only [search]; rw [if_pos hc]; exact h1, by linarith, le_trans h3 ?_, h4⟩
      exact max_le (le_trans (by linarith) (le_max_right _ _)) (le_max_right _ _)
    · exact ⟨L, by simp only [search]; rw [if_neg hc], le_refl _, le_max_left _ _, not_lt.1 hc⟩

theorem theta_next {t : ℝ} (h0 : 0 < t) (h1 : t ≤ 1) :
    0 < (√(t ^ 4 + 4 * t ^ 2) - t ^ 2) / 2 ∧ (√(t ^ 4 + 4 * t ^ 2) - t ^ 2) / 2 ≤ 1 ∧
      ((√(t ^ 4 + 4 * t ^ 2) - t ^ 2) / 2) ^ 2 = t ^ 2 * (1 - (√(t ^ 4 + 4 * t ^ 2) - t ^ 2) / 2) := by
  set r := √(t ^ 4 + 4 * t ^ 2) with hr
  have hsq : r ^ 2 = t ^ 4 + 4 * t ^ 2 := Real.sq_sqrt (by positivity)
  have hr0 : 0 ≤ r := Real.sqrt_nonneg _
  have ht2 : 0 < t ^ 2 := by positivity
  have hgt : t ^ 2 < r := by
    by_contra hn
    have : r ^ 2 ≤ (t ^ 2) ^ 2 := pow_le_pow_left₀ hr0 (not_lt.1 hn) 2
    nlinarith
  have hq : ((r - t ^ 2) / 2) ^ 2 = t ^ 2 * (1 - (r - t ^ 2) / 2) := by
    linear_combination hsq / 4
  refine ⟨by linarith, ?_, hq⟩
  have : 0 ≤ t ^ 2 * (1 - (r - t ^ 2) / 2) := by rw [← hq]; positivity
  have := nonneg_of_mul_nonneg_right this ht2
  linarith

/-- What a step does. -/
theorem step_spec (eig : Matrix n n ℝ → (n → ℝ) × Matrix n n ℝ) {p : Prob m n} (hp : Good p) {s : St m n} (h : Inv p s) {fuel : Nat} (hf : lip p ≤ 2 ^ (fuel + 1)) :
    ∃ s' c, step eig p fuel s = some (s', c) ∧ Inv p s' ∧ s'.Z0 = s.Z1 ∧ s'.th0 = s.th1 ∧ s'.th1 ^ 2 = s.th1 ^ 2 * (1 - s'.th1) ∧ s.L ≤ s'.L ∧ s'.L ≤ max s.L (2 * lip p) ∧
      s'.Z1 = (trial eig p s s'.L).1 ∧ c = ineqL p s'.Z1 + p.l1 * (trial eig p s s'.L).2 ∧ ineqL p s'.Z1 ≤ ineqR p s s'.L s'.Z1 := by
  have hl : lip p ≤ s.L * 2 ^ fuel := by
    rw [pow_succ] at hf
    have : (2 : ℝ) * 2 ^ fuel ≤ s.L * 2 ^ fuel := mul_le_mul_of_nonneg_right h.L (by positivity)
    linarith
  obtain ⟨L', h1, h2, h3, h4⟩ := search_ends eig hp h fuel s.L (by linarith [h.L]) hl
  obtain ⟨t1, t2, t3⟩ := theta_next h.th1 h.th1_le
  refine ⟨⟨s.Z1, (trial eig p s L').1, s.P1, masked p (trial eig p s L').1, s.th1, (√(s.th1 ^ 4 + 4 * s.th1 ^ 2) - s.th1 ^ 2) / 2, L'⟩, _, ?_,
    ⟨h.P1, rfl, h.th1, t1, t2, le_trans h.L h2⟩, rfl, rfl, t3, h2, h3, rfl, rfl, h4⟩
  simp only [step, h1]

/-! ## The rate -/

/-- The value of the objective. -/
noncomputable def total (p : Prob m n) (Z : Matrix m n ℝ) : ℝ := ineqL p Z + p.l1 * nuclear Z

/-- The point that the distances are measured from. -/
noncomputable def St.v (s : St m n) : Matrix m n ℝ := s.Z0 + (1 / s.th0) • (s.Z1 - s.Z0)

theorem trial_spec {eig : Matrix n n ℝ → (n → ℝ) × Matrix n n ℝ} (he : EigOK m eig) {p : Prob m n} (hp : Good p) (s : St m n) {L : ℝ} (hL : 0 < L) :
    (trial eig p s L).2 = nuclear (trial eig p s L).1 ∧ ∀ X, frob (s.grad p) ((trial eig p s L).1 - s.Y) + L / 2 * frob ((trial eig p s L).1 - s.Y) ((trial eig p s L).1 - s.Y) +
      p.l1 * nuclear (trial eig p s L).1 + L / 2 * frob (X - (trial eig p s L).1) (X - (trial eig p s L).1) ≤
      frob (s.grad p) (X - s.Y) + L / 2 * frob (X - s.Y) (X - s.Y) + p.l1 * nuclear X := by
  obtain ⟨h1, h2⟩ := C109_threshold_partial eig (s.Y - (1 / L) • s.grad p) (p.l1 / L) (div_nonneg hp.l1 hL.le) (he _).1 (he _).2
  refine ⟨h1, fun X => ?_⟩
  have h3 := h2 X
  rw [show svdThreshold eig (s.Y - (1 / L) • s.grad p) (p.l1 / L) = trial eig p s L from rfl] at h3
  generalize (trial eig p s L).1 = Z at *
  have e : ∀ A : Matrix m n ℝ, L * (frob (A - (s.Y - (1 / L) • s.grad p)) (A - (s.Y - (1 / L) • s.grad p)) / 2) =
      L / 2 * frob (A - s.Y) (A - s.Y) + frob (s.grad p) (A - s.Y) + 1 / (2 * L) * frob (s.grad p) (s.grad p) := by
    intro A
    have : A - (s.Y - (1 / L) • s.grad p) = (A - s.Y) + (1 / L) • s.grad p := by abel
    rw [this]
    simp only [frob_add_left, frob_add_right, frob_smul_left, frob_smul_right]
    rw [frob_comm (A - s.Y) (s.grad p)]
    field_simp
    ring
  have h4 := mul_le_mul_of_nonneg_left h3 hL.le
  have e1 := e Z
  have e2 := e X
  have e3 : L * (p.l1 / L * nuclear Z) = p.l1 * nuclear Z := by field_simp
  have e4 : L * (p.l1 / L * nuclear X) = p.l1 * nuclear X := by field_simp
  simp only [mul_add] at h4
  rw [e1, e2, e3, e4] at h4
  linarith

theorem descent {eig : Matrix n n ℝ → (n → ℝ) × Matrix n n ℝ} (he : EigOK m eig) {p : Prob m n} (hp : Good p) {s s' : St m n} (h : Inv p s)
    (hZ0 : s'.Z0 = s.Z1) (hth : s'.th0 = s.th1) (hL : 0 < s'.L) (hZ1 : s'.Z1 = (trial eig p s s'.L).1) (hq : ineqL p s'.Z1 ≤ ineqR p s s'.L s'.Z1) (X : Matrix m n ℝ) :
    total p s'.Z1 - total p X ≤ (1 - s.th1) * (total p s.Z1 - total p X) + s'.L * s.th1 ^ 2 / 2 * (frob (X - s.v) (X - s.v) - frob (X - s'.v) (X - s'.v)) := by
  have h1 := (trial_spec he hp s hL).2 ((1 - s.th1) • s.Z1 + s.th1 • X)
  rw [← hZ1] at h1
  rw [ineqR_eq h] at hq
  rw [grad_eq h] at h1
  have h2 := expand hp s.Y ((1 - s.th1) • s.Z1 + s.th1 • X)
  have h3 := remainder_nonneg hp (((1 - s.th1) • s.Z1 + s.th1 • X) - s.Y)
  -- convexity of the smooth part
  have e1 := expand hp ((1 - s.th1) • s.Z1 + s.th1 • X) s.Z1
  have e2 := expand hp ((1 - s.th1) • s.Z1 + s.th1 • X) X
  have r1 := remainder_nonneg hp (s.Z1 - ((1 - s.th1) • s.Z1 + s.th1 • X))
  have r2 := remainder_nonneg hp (X - ((1 - s.th1) • s.Z1 + s.th1 • X))
  have hcomb : (1 - s.th1) * frob (gradAt p ((1 - s.th1) • s.Z1 + s.th1 • X)) (s.Z1 - ((1 - s.th1) • s.Z1 + s.th1 • X)) +
      s.th1 * frob (gradAt p ((1 - s.th1) • s.Z1 + s.th1 • X)) (X - ((1 - s.th1) • s.Z1 + s.th1 • X)) = 0 := by
    rw [← frob_smul_right, ← frob_smul_right, ← frob_add_right]
    have : (1 - s.th1) • (s.Z1 - ((1 - s.th1) • s.Z1 + s.th1 • X)) + s.th1 • (X - ((1 - s.th1) • s.Z1 + s.th1 • X)) = 0 := by
      ext i j
      simp only [Matrix.add_apply, Matrix.smul_apply, Matrix.sub_apply, smul_eq_mul, Matrix.zero_apply]
      ring
    rw [this]
    simp [frob]
  have hconv : ineqL p ((1 - s.th1) • s.Z1 + s.th1 • X) ≤ (1 - s.th1) * ineqL p s.Z1 + s.th1 * ineqL p X := by
    have q1 := mul_nonneg (by linarith [h.th1_le] : 0 ≤ 1 - s.th1) r1
    have q2 := mul_nonneg h.th1.le r2
    rw [e1, e2]
    nlinarith
  have hn := mul_le_mul_of_nonneg_left (nuclear_convex s.Z1 X h.th1.le h.th1_le) hp.l1
  have v1 : ((1 - s.th1) • s.Z1 + s.th1 • X) - s.Y = s.th1 • (X - s.v) := by
    have := h.th0.ne'
    ext i j
    simp only [St.Y, St.v, Matrix.add_apply, Matrix.smul_apply, Matrix.sub_apply, smul_eq_mul]
    ring
  have v2 : ((1 - s.th1) • s.Z1 + s.th1 • X) - s'.Z1 = s.th1 • (X - s'.v) := by
    have := h.th1.ne'
    ext i j
    simp only [St.v, hZ0, hth, Matrix.add_apply, Matrix.smul_apply, Matrix.sub_apply, smul_eq_mul]
    field_simp
    ring
  rw [v1] at h2 h3
  rw [v1, v2] at h1
  simp only [frob_smul_left, frob_smul_right] at h1 h2 h3
  unfold total
  nlinarith

theorem run_inv {eig : Matrix n n ℝ → (n → ℝ) × Matrix n n ℝ} {p : Prob m n} (hp : Good p) {fuel : Nat} (hf : lip p ≤ 2 ^ (fuel + 1)) {s : Nat → St m n} {c : Nat → ℝ}
    (hr : Run eig p fuel s c) : ∀ q, Inv p (s q) ∧ (s q).L ≤ max 2 (2 * lip p)
  | 0 => by
    rw [hr.zero]
    exact ⟨inv_init p, le_max_left _ _⟩
  | q + 1 => by
    obtain ⟨h1, h2⟩ := run_inv hp hf hr q
    obtain ⟨s', c', e, hi, -, -, -, -, hL, -⟩ := step_spec eig hp h1 hf
    rw [hr.succ q] at e
    cases e
    exact ⟨hi, le_trans hL (max_le h2 (le_max_right _ _))⟩

theorem run_exists (eig : Matrix n n ℝ → (n → ℝ) × Matrix n n ℝ) {p : Prob m n} (hp : Good p) {fuel : Nat} (hf : lip p ≤ 2 ^ (fuel + 1)) : ∃ s c, Run eig p fuel s c := by
  classical
  let next : St m n → St m n × ℝ := fun s => (step eig p fuel s).getD (s, 0)
  let s : Nat → St m n := fun q => Nat.rec St.init (fun _ r => (next r).1) q
  have hinv : ∀ q, Inv p (s q) ∧ step eig p fuel (s q) = some (s (q + 1), (next (s q)).2) := by
    intro q
    induction q with
    | zero =>
      obtain ⟨s', c', e, hi, -⟩ := step_spec eig hp (inv_init p) hf
      refine ⟨inv_init p, ?_⟩
      show step eig p fuel St.init = some ((next St.init).1, (next St.init).2)
      simp only [next, e, Option.getD_some]
    | succ q ih =>
      obtain ⟨s', c', e, hi, -⟩ := step_spec eig hp ih.1 hf
      have hs : s (q + 1) = s' := by
        have := ih.2
        rw [e] at this
        exact (Prod.mk.inj (Option.some.inj this)).1.symm
      have hi' : Inv p (s (q + 1)) := by rw [hs]; exact hi
      refine ⟨hi', ?_⟩
      obtain ⟨s'', c'', e', -⟩ := step_spec eig hp hi' hf
      show step eig p fuel (s (q + 1)) = some ((next (s (q + 1))).1, (next (s (q + 1))).2)
      simp only [next, e', Option.getD_some]
  exact ⟨s, fun q => (next (s q)).2, rfl, fun q => (hinv q).2⟩

theorem energy {eig : Matrix n n ℝ → (n → ℝ) × Matrix n n ℝ} (he : EigOK m eig) {p : Prob m n} (hp : Good p) {fuel : Nat} (hf : lip p ≤ 2 ^ (fuel + 1)) {s : Nat → St m n} {c : Nat → ℝ}
    (hr : Run eig p fuel s c) (X : Matrix m n ℝ) (hX : ∀ q, total p X ≤ total p (s (q + 1)).Z1) :
    ∀ q, c q = total p (s (q + 1)).Z1 ∧ total p (s (q + 1)).Z1 - total p X ≤ (s (q + 1)).L * (s (q + 1)).th0 ^ 2 / 2 * (frob X X - frob (X - (s (q + 1)).v) (X - (s (q + 1)).v)) ∧
      (s (q + 1)).th1 ^ 2 = (s (q + 1)).th0 ^ 2 * (1 - (s (q + 1)).th1) ∧ ((q : ℝ) + 2) / 2 ≤ 1 / (s (q + 1)).th0 := by
  intro q
  induction q with
  | zero =>
    have h0 := (run_inv hp hf hr 0).1
    obtain ⟨s', c', e, hi, hZ0, hth, ht, hL, -, hZ1, hc, hq⟩ := step_spec eig hp h0 hf
    rw [hr.succ 0] at e
    cases e
    have hLp : 0 < (s (0 + 1)).L := by linarith [hi.L]
    have hd := descent he hp h0 hZ0 hth hLp hZ1 hq X
    have h1 : (s 0).th1 = 1 := by rw [hr.zero]; rfl
    have hv : (s 0).v = 0 := by rw [hr.zero]; simp [St.v, St.init]
    refine ⟨?_, ?_, ?_, ?_⟩
    · rw [hc, (trial_spec he hp (s 0) hLp).1, ← hZ1]; rfl
    · rw [hv, h1, sub_zero] at hd
      rw [hth, h1]
      linarith
    · rw [hth]; exact ht
    · rw [hth, h1]; norm_num
  | succ q ih =>
    obtain ⟨-, ih1, ih2, ih3⟩ := ih
    have h0 := (run_inv hp hf hr (q + 1)).1
    obtain ⟨s', c', e, hi, hZ0, hth, ht, hL, -, hZ1, hc, hq⟩ := step_spec eig hp h0 hf
    rw [hr.succ (q + 1)] at e
    cases e
    have hLp : 0 < (s (q + 1 + 1)).L := by linarith [hi.L]
    have hd := descent he hp h0 hZ0 hth hLp hZ1 hq X
    have hpos := hX q
    have t0 := h0.th0
    have t1 := h0.th1
    refine ⟨?_, ?_, ?_, ?_⟩
    · rw [hc, (trial_spec he hp (s (q + 1)) hLp).1, ← hZ1]; rfl
    · rw [hth]
      have hB : 0 ≤ frob X X - frob (X - (s (q + 1)).v) (X - (s (q + 1)).v) := by
        have : 0 ≤ (s (q + 1)).L * (s (q + 1)).th0 ^ 2 / 2 * (frob X X - frob (X - (s (q + 1)).v) (X - (s (q + 1)).v)) := by linarith
        have h2 := h0.L
        exact nonneg_of_mul_nonneg_right this (by positivity)
      -- `(1 - θ) δ ≤ θ² L' / 2 * B`
      have hδ : total p (s (q + 1)).Z1 - total p X ≤ (s (q + 1 + 1)).L * (s (q + 1)).th0 ^ 2 / 2 * (frob X X - frob (X - (s (q + 1)).v) (X - (s (q + 1)).v)) := by
        refine le_trans ih1 (mul_le_mul_of_nonneg_right ?_ hB)
        have := mul_le_mul_of_nonneg_right hL (by positivity : 0 ≤ (s (q + 1)).th0 ^ 2)
        linarith
      have h1θ : 0 ≤ 1 - (s (q + 1)).th1 := by linarith [h0.th1_le]
      have hm := mul_le_mul_of_nonneg_left hδ h1θ
      have heq : (1 - (s (q + 1)).th1) * ((s (q + 1 + 1)).L * (s (q + 1)).th0 ^ 2 / 2 * (frob X X - frob (X - (s (q + 1)).v) (X - (s (q + 1)).v))) =
          (s (q + 1 + 1)).L * (s (q + 1)).th1 ^ 2 / 2 * (frob X X - frob (X - (s (q + 1)).v) (X - (s (q + 1)).v)) := by
        rw [ih2]; ring
      rw [heq] at hm
      linarith
    · rw [hth]; exact ht
    · rw [hth]
      have h1 : (1 / (s (q + 1)).th1 - 1 / 2) ^ 2 = (1 / (s (q + 1)).th0) ^ 2 + 1 / 4 := by
        have n0 := t0.ne'
        have n1 := t1.ne'
        field_simp
        linear_combination (-16 : ℝ) * ih2
      have h2 : 1 ≤ 1 / (s (q + 1)).th1 := by rw [le_div_iff₀ t1]; linarith [h0.th1_le]
      have h3 : 0 < 1 / (s (q + 1)).th0 := by positivity
      have h4 : 1 / (s (q + 1)).th0 ≤ 1 / (s (q + 1)).th1 - 1 / 2 := by
        by_contra hn
        have := pow_le_pow_left₀ (by linarith) (not_le.1 hn).le 2
        linarith
      push_cast
      linarith

theorem rate {eig : Matrix n n ℝ → (n → ℝ) × Matrix n n ℝ} (he : EigOK m eig) {p : Prob m n} (hp : Good p) {fuel : Nat} (hf : lip p ≤ 2 ^ (fuel + 1)) {s : Nat → St m n} {c : Nat → ℝ}
    (hr : Run eig p fuel s c) (X : Matrix m n ℝ) (hX : ∀ q, total p X ≤ total p (s (q + 1)).Z1) (q : Nat) :
    c q = total p (s (q + 1)).Z1 ∧ total p (s (q + 1)).Z1 ≤ total p X + 2 * (max 2 (2 * lip p)) * frob X X / ((q : ℝ) + 2) ^ 2 := by
  obtain ⟨h1, h2, -, h4⟩ := energy he hp hf hr X hX q
  obtain ⟨hi, hL⟩ := run_inv hp hf hr (q + 1)
  refine ⟨h1, ?_⟩
  have t0 := hi.th0
  have hq : (0 : ℝ) < (q : ℝ) + 2 := by positivity
  have ht : (s (q + 1)).th0 ≤ 2 / ((q : ℝ) + 2) := by
    rw [le_div_iff₀ hq]
    rw [le_div_iff₀ t0] at h4
    linarith
  have ht2 : (s (q + 1)).th0 ^ 2 ≤ 4 / ((q : ℝ) + 2) ^ 2 := by
    have := pow_le_pow_left₀ t0.le ht 2
    rw [div_pow] at this
    norm_num at this
    exact this
  have hv := frob_self_nonneg (X - (s (q + 1)).v)
  have hx := frob_self_nonneg X
  have hLp := hi.L
  have a1 : (s (q + 1)).L * (s (q + 1)).th0 ^ 2 / 2 * (frob X X - frob (X - (s (q + 1)).v) (X - (s (q + 1)).v)) ≤ (s (q + 1)).L * (s (q + 1)).th0 ^ 2 / 2 * frob X X :=
    mul_le_mul_of_nonneg_left (by linarith) (by positivity)
  have a2 : (s (q + 1)).L * (s (q + 1)).th0 ^ 2 ≤ max 2 (2 * lip p) * (4 / ((q : ℝ) + 2) ^ 2) :=
    mul_le_mul hL ht2 (by positivity) (by positivity)
  have a3 := mul_le_mul_of_nonneg_right a2 (by linarith : 0 ≤ frob X X / 2)
  have a4 : max 2 (2 * lip p) * (4 / ((q : ℝ) + 2) ^ 2) * (frob X X / 2) = 2 * (max 2 (2 * lip p)) * frob X X / ((q : ℝ) + 2) ^ 2 := by ring
  linarith

/-! ## The claims -/

theorem prob_good {pinv : Matrix (n ⊕ Unit) (n ⊕ Unit) ℝ → Matrix (n ⊕ Unit) (n ⊕ Unit) ℝ} {X mask : Matrix m n ℝ} {obs : m → n → Prop} (hm : IsMaskOf mask obs) (y : m → ℝ) {l1 l2 : ℝ}
    (h1 : 0 ≤ l1) (h2 : 0 ≤ l2) : Good (prob pinv X mask y l1 l2) := by
  have h01 : ∀ i j, mask i j = 0 ∨ mask i j = 1 := by
    intro i j
    by_cases h : obs i j
    · exact .inr ((hm i j).1 h)
    · exact .inl ((hm i j).2 h)
  refine ⟨fun i j => ?_, fun i j => ?_, h1, div_nonneg h2 (Nat.cast_nonneg _)⟩
  · rcases h01 i j with h | h <;> simp [prob, h]
  · rcases h01 i j with h | h <;> simp [prob, h]

theorem prob_total {pinv : Matrix (n ⊕ Unit) (n ⊕ Unit) ℝ → Matrix (n ⊕ Unit) (n ⊕ Unit) ℝ} {X mask : Matrix m n ℝ} {obs : m → n → Prop} (hm : IsMaskOf mask obs) (y : m → ℝ) (l1 l2 : ℝ)
    {w : n → ℝ} {b : ℝ} (hw : weights pinv (fun i j => mask i j * X i j) y = (w, b)) (Z : Matrix m n ℝ) :
    total (prob pinv X mask y l1 l2) Z = completionObjective obs X y w b l1 l2 Z := by
  have e : prob pinv X mask y l1 l2 = ⟨fun i j => mask i j * X i j, mask, y, w, b, l1, l2 / Fintype.card m⟩ := by
    simp only [prob, hw]
  rw [e, total, ineqL, completionObjective, Real.sq_sqrt (Finset.sum_nonneg fun _ _ => Finset.sum_nonneg fun _ _ => sq_nonneg _)]
  congr 1
  congr 1
  · congr 1
    refine Finset.sum_congr rfl fun i _ => Finset.sum_congr rfl fun j _ => ?_
    by_cases h : obs i j
    · simp [masked, h, (hm i j).1 h]
    · simp [masked, h, (hm i j).2 h]
  · simp only [residual, mulVec, dotProduct]
    ring

/-- C109: the search for the step size ends in every step, whatever `np.linalg.eig` returns: with `fuel` doublings at most, if `2 ^ (fuel + 1)` is at least the curvature of the smooth part. -/
theorem C109_steps (pinv : Matrix (n ⊕ Unit) (n ⊕ Unit) ℝ → Matrix (n ⊕ Unit) (n ⊕ Unit) ℝ) (eig : Matrix n n ℝ → (n → ℝ) × Matrix n n ℝ) (X mask : Matrix m n ℝ) (obs : m → n → Prop)
    (hm : IsMaskOf mask obs) (y : m → ℝ) (l1 l2 : ℝ) (h1 : 0 ≤ l1) (h2 : 0 ≤ l2) (w : n → ℝ) (b : ℝ) (hw : weights pinv (fun i j => mask i j * X i j) y = (w, b)) (fuel : Nat)
    (hf : 1 + 2 * (l2 / Fintype.card m) * (w ⬝ᵥ w) ≤ 2 ^ (fuel + 1)) :
    ∃ s c, Run eig (prob pinv X mask y l1 l2) fuel s c ∧ ∀ q, (s q).L ≤ max 2 (2 * (1 + 2 * (l2 / Fintype.card m) * (w ⬝ᵥ w))) := by
  have hl : lip (prob pinv X mask y l1 l2) = 1 + 2 * (l2 / Fintype.card m) * (w ⬝ᵥ w) := by
    simp only [lip, prob, hw]
  obtain ⟨s, c, hr⟩ := run_exists eig (prob_good (pinv := pinv) hm y h1 h2 : Good (prob pinv X mask y l1 l2)) (by rw [hl]; exact hf)
  exact ⟨s, c, hr, fun q => by rw [← hl]; exact (run_inv (prob_good hm y h1 h2) (by rw [hl]; exact hf) hr q).2⟩

/-- C109: the value `convergence[k]` is the objective of `Z1`, and after `q + 1` steps, over all rounds, the objective of `Z1` exceeds the optimum by at most a constant divided by the square of `q + 2`.
`Zopt` is an optimal completion (`C109_optimum`). -/
theorem C109_rate_partial (pinv : Matrix (n ⊕ Unit) (n ⊕ Unit) ℝ → Matrix (n ⊕ Unit) (n ⊕ Unit) ℝ) (eig : Matrix n n ℝ → (n → ℝ) × Matrix n n ℝ) (he : EigOK m eig) (X mask : Matrix m n ℝ)
    (obs : m → n → Prop) (hm : IsMaskOf mask obs) (y : m → ℝ) (l1 l2 : ℝ) (h1 : 0 ≤ l1) (h2 : 0 ≤ l2) (w : n → ℝ) (b : ℝ) (hw : weights pinv (fun i j => mask i j * X i j) y = (w, b)) (fuel : Nat)
    (hf : 1 + 2 * (l2 / Fintype.card m) * (w ⬝ᵥ w) ≤ 2 ^ (fuel + 1)) (s : Nat → St m n) (c : Nat → ℝ) (hr : Run eig (prob pinv X mask y l1 l2) fuel s c) (Zopt : Matrix m n ℝ)
    (hopt : ∀ Z, completionObjective obs X y w b l1 l2 Zopt ≤ completionObjective obs X y w b l1 l2 Z) (q : Nat) :
    c q = completionObjective obs X y w b l1 l2 (s (q + 1)).Z1 ∧
      completionObjective obs X y w b l1 l2 (s (q + 1)).Z1 ≤
        completionObjective obs X y w b l1 l2 Zopt + 2 * max 2 (2 * (1 + 2 * (l2 / Fintype.card m) * (w ⬝ᵥ w))) * frob Zopt Zopt / ((q : ℝ) + 2) ^ 2 := by
  have hl : lip (prob pinv X mask y l1 l2) = 1 + 2 * (l2 / Fintype.card m) * (w ⬝ᵥ w) := by
    simp only [lip, prob, hw]
  have ht := prob_total hm y l1 l2 hw
  have := rate he (prob_good hm y h1 h2) (by rw [hl]; exact hf) hr Zopt (fun q => by rw [ht, ht]; exact hopt _) q
  rw [ht, ht, hl] at this
  exact this

theorem outerLoop_round {μ : Type} (it : Nat → Nat → μ × ℝ) (maxIn : Nat) : ∀ (k i : Nat) (conv : List ℝ) (best : Nat × μ) (x : μ),
    outerLoop it maxIn k i conv best = .ok x → x = best.2 ∨ ∃ a b q, i ≤ a ∧ a < i + k ∧ inner (it a) maxIn = some (b, q) ∧ x = b.2
  | 0, _, _, best, x, h => by
    simp only [outerLoop, Except.ok.injEq] at h
    exact .inl h.symm
  | k + 1, i, conv, best, x, h => by
    rw [outerLoop] at h
    rcases hi : inner (it i) maxIn with _ | ⟨⟨obj, z⟩, q⟩
    · rw [hi] at h; cases h
    · rw [hi] at h
      simp only at h
      split at h
      · cases h
      · have hb : ∀ P : Prop, [Decidable P] → ((if P then (q, z) else best).2 = best.2) ∨ ((if P then (q, z) else best).2 = z) := by
          intro P _; split <;> simp
        split at h
        · simp only [Except.ok.injEq] at h
          rcases hb ((conv.set i obj).getD q 0 < (conv.set i obj).getD best.1 0) with h' | h'
          · exact .inl (by rw [← h, h'])
          · exact .inr ⟨i, _, q, le_refl _, by omega, hi, by rw [← h, h']⟩
        · rcases outerLoop_round it maxIn k (i + 1) _ _ x h with h | ⟨a, b, q', h1, h2, h3⟩
          · rcases hb ((conv.set i obj).getD q 0 < (conv.set i obj).getD best.1 0) with h' | h'
            · exact .inl (by rw [h, h'])
            · exact .inr ⟨i, _, q, le_refl _, by omega, hi, by rw [h, h']⟩
          · exact .inr ⟨a, b, q', by omega, by omega, h3⟩

theorem outer_round {μ : Type} (it : Nat → Nat → μ × ℝ) (maxIn maxOut : Nat) (x : μ) (h : outer it maxIn maxOut = .ok x) :
    ∃ a b q, a < maxOut ∧ inner (it a) maxIn = some (b, q) ∧ x = b.2 := by
  cases maxOut with
  | zero => cases h
  | succ k =>
    rw [outer] at h
    rcases hi : inner (it 0) maxIn with _ | ⟨⟨obj, z⟩, q⟩
    · rw [hi] at h; cases h
    · rw [hi] at h
      rcases outerLoop_round it maxIn k 1 _ _ x h with h | ⟨a, b, q', h1, h2, h3⟩
      · exact ⟨0, _, q, by omega, hi, h⟩
      · exact ⟨a, b, q', by omega, h3⟩

/-- Every round makes at least one new step. -/
theorem le_start (s : Nat → St m n) (c : Nat → ℝ) {maxIn : Nat} (h0 : 0 < maxIn) : ∀ a, a ≤ start s c maxIn a
  | 0 => Nat.zero_le _
  | a + 1 => by
    have := le_start s c h0 a
    obtain ⟨k, rfl⟩ : ∃ k, maxIn = k + 1 := ⟨maxIn - 1, by omega⟩
    rw [start]
    simp only [Features.inner]
    omega

/-- C109: the matrix `Xmc` that is completed with is the best of a round, and its objective exceeds the optimum by at most a constant divided by the square of the number of steps made until the end of that round
(`start … a` steps before it, at least one for each round, and `q + 1` in it), plus one. -/
theorem C109_result_partial (pinv : Matrix (n ⊕ Unit) (n ⊕ Unit) ℝ → Matrix (n ⊕ Unit) (n ⊕ Unit) ℝ) (eig : Matrix n n ℝ → (n → ℝ) × Matrix n n ℝ) (he : EigOK m eig) (X mask : Matrix m n ℝ)
    (obs : m → n → Prop) (hm : IsMaskOf mask obs) (y : m → ℝ) (l1 l2 : ℝ) (h1 : 0 ≤ l1) (h2 : 0 ≤ l2) (w : n → ℝ) (b : ℝ) (hw : weights pinv (fun i j => mask i j * X i j) y = (w, b)) (fuel : Nat)
    (hf : 1 + 2 * (l2 / Fintype.card m) * (w ⬝ᵥ w) ≤ 2 ^ (fuel + 1)) (s : Nat → St m n) (c : Nat → ℝ) (hr : Run eig (prob pinv X mask y l1 l2) fuel s c) (Zopt : Matrix m n ℝ)
    (hopt : ∀ Z, completionObjective obs X y w b l1 l2 Zopt ≤ completionObjective obs X y w b l1 l2 Z) (maxIn maxOut : Nat) (Z : Matrix m n ℝ) (hx : xmc s c maxIn maxOut = .ok Z) :
    ∃ a best q, a < maxOut ∧ a ≤ start s c maxIn a ∧ inner (fun k => iterate s c (start s c maxIn a + k)) maxIn = some (best, q) ∧ best = (completionObjective obs X y w b l1 l2 Z, Z) ∧
      completionObjective obs X y w b l1 l2 Z ≤ completionObjective obs X y w b l1 l2 Zopt +
        2 * max 2 (2 * (1 + 2 * (l2 / Fintype.card m) * (w ⬝ᵥ w))) * frob Zopt Zopt / ((start s c maxIn a + q : ℕ) + 2) ^ 2 := by
  obtain ⟨a, best, q, ha, hi, rfl⟩ := outer_round _ _ _ _ hx
  have hrate := C109_rate_partial pinv eig he X mask obs hm y l1 l2 h1 h2 w b hw fuel hf s c hr Zopt hopt
  have h0 : 0 < maxIn := by
    rcases Nat.eq_zero_or_pos maxIn with h | h
    · subst h; cases hi
    · exact h
  obtain ⟨k, q', -, hq', hin, hbest⟩ := C59_inner_best (fun k => iterate s c (start s c maxIn a + k)) h0
  rw [hin] at hi
  cases hi
  have e : ∀ j, (iterate s c j).2 = completionObjective obs X y w b l1 l2 (iterate s c j).1 := fun j => (hrate j).1
  refine ⟨a, _, q, ha, le_start s c h0 a, hin, Prod.ext (e _) rfl, ?_⟩
  have := hbest q (le_refl _)
  rw [e, e] at this
  exact le_trans this (hrate (start s c maxIn a + q)).2

/-! ## The optimum -/

theorem abs_le_nuclear (Z : Matrix m n ℝ) (i : m) (j : n) : |Z i j| ≤ nuclear Z := by
  classical
  have hs : ∀ t : ℝ, t * t ≤ 1 → t * Z i j ≤ nuclear Z := by
    intro t ht
    have hW : Contraction (vecMulVec (Pi.single i t) (Pi.single j (1 : ℝ)) : Matrix m n ℝ) := by
      intro x
      have : (vecMulVec (Pi.single i t) (Pi.single j (1 : ℝ)) : Matrix m n ℝ) *ᵥ x = Pi.single i (t * x j) := by
        ext k
        simp only [mulVec, dotProduct, vecMulVec_apply]
        by_cases hk : k = i
        · subst hk; simp [Pi.single_apply, mul_assoc, mul_comm]
        · simp [Pi.single_apply, hk]
      rw [this]
      have h1 : x j * x j ≤ x ⬝ᵥ x := Finset.single_le_sum (f := fun k => x k * x k) (fun k _ => mul_self_nonneg _) (Finset.mem_univ j)
      have h2 : (Pi.single i (t * x j) : m → ℝ) ⬝ᵥ Pi.single i (t * x j) = (t * t) * (x j * x j) := by
        simp; ring
      rw [h2]
      nlinarith [mul_self_nonneg (x j)]
    have := le_nuclear hW Z
    rw [frob_vecMulVec] at this
    simpa using this
  rcases abs_choice (Z i j) with h | h
  · rw [h]; simpa using hs 1 (by norm_num)
  · rw [h]; simpa using hs (-1) (by norm_num)

theorem nuclear_lipschitz (A B : Matrix m n ℝ) : |nuclear A - nuclear B| ≤ ∑ i, ∑ j, |A i j - B i j| := by
  have h : ∀ A B : Matrix m n ℝ, nuclear A ≤ nuclear B + ∑ i, ∑ j, |A i j - B i j| := by
    intro A B
    refine nuclear_le fun W hW => ?_
    have h1 := le_nuclear hW B
    have h2 := frob_le hW (A - B)
    rw [frob_sub_right] at h2
    simp only [Matrix.sub_apply] at h2
    linarith
  rw [abs_le]
  constructor
  · have := h B A
    simp only [abs_sub_comm (B _ _)] at this
    linarith
  · linarith [h A B]

theorem nuclear_continuous : Continuous fun Z : m → n → ℝ => nuclear (Z : Matrix m n ℝ) := by
  rw [continuous_iff_continuousAt]
  intro B
  rw [ContinuousAt, tendsto_iff_dist_tendsto_zero]
  refine squeeze_zero (fun _ => dist_nonneg) (fun A => nuclear_lipschitz (A : Matrix m n ℝ) B) ?_
  refine Continuous.tendsto' (f := fun A : m → n → ℝ => ∑ i, ∑ j, |A i j - B i j|) ?_ _ _ (by simp)
  fun_prop

/-- C109: with `lambda1 > 0` there is an optimal completion. -/
theorem C109_optimum (obs : m → n → Prop) (X : Matrix m n ℝ) (y : m → ℝ) (w : n → ℝ) (b l1 l2 : ℝ) (h1 : 0 < l1) (h2 : 0 ≤ l2) :
    ∃ Zopt, ∀ Z, completionObjective obs X y w b l1 l2 Zopt ≤ completionObjective obs X y w b l1 l2 Z := by
  classical
  set F : (m → n → ℝ) → ℝ := fun Z => completionObjective obs X y w b l1 l2 Z with hF
  have hcont : Continuous F := by
    simp only [hF, completionObjective]
    refine Continuous.add (Continuous.add (Continuous.div_const ?_ _) ?_) (continuous_const.mul nuclear_continuous)
    · refine continuous_finset_sum _ fun i _ => continuous_finset_sum _ fun j _ => ?_
      split <;> fun_prop
    · fun_prop
  have hge : ∀ Z : m → n → ℝ, l1 * nuclear (Z : Matrix m n ℝ) ≤ F Z := by
    intro Z
    simp only [hF, completionObjective]
    have a1 : 0 ≤ (∑ i, ∑ j, if obs i j then (Z i j - X i j) ^ 2 else 0) / 2 := by
      refine div_nonneg (Finset.sum_nonneg fun _ _ => Finset.sum_nonneg fun _ _ => ?_) (by norm_num)
      split
      · exact sq_nonneg _
      · exact le_refl _
    have a2 : 0 ≤ l2 * ((∑ i, ((∑ j, Z i j * w j) + b - y i) ^ 2) / (Fintype.card m : ℝ)) :=
      mul_nonneg h2 (div_nonneg (Finset.sum_nonneg fun _ _ => sq_nonneg _) (Nat.cast_nonneg _))
    linarith
  have hF0 : 0 ≤ F 0 := le_trans (mul_nonneg h1.le (nuclear_nonneg _)) (hge 0)
  obtain ⟨Z0, hZ0, hmin⟩ := (isCompact_closedBall (0 : m → n → ℝ) (F 0 / l1)).exists_isMinOn ⟨0, by simp; positivity⟩ hcont.continuousOn
  refine ⟨Z0, fun Z => ?_⟩
  change m → n → ℝ at Z
  show F Z0 ≤ F Z
  by_cases hZ : Z ∈ Metric.closedBall (0 : m → n → ℝ) (F 0 / l1)
  · exact hmin hZ
  · have h00 : F Z0 ≤ F 0 := hmin (by simp; positivity)
    refine le_trans h00 ?_
    have hpos : 0 ≤ F 0 / l1 := by positivity
    by_contra hlt
    apply hZ
    rw [mem_closedBall_zero_iff, pi_norm_le_iff_of_nonneg hpos]
    intro i
    rw [pi_norm_le_iff_of_nonneg hpos]
    intro j
    have a := abs_le_nuclear (Z : Matrix m n ℝ) i j
    have b := hge Z
    rw [Real.norm_eq_abs, le_div_iff₀ h1]
    have c := mul_le_mul_of_nonneg_left a h1.le
    linarith

/-! ## The linear model -/

/-- C109: the linear model is a least squares fit, intercept included, to the matrix in which the entries that are not observed are 0. That matrix does not change from round to round, and so the rounds all use
the same linear model. Of `np.linalg.pinv` only the first of Penrose's equations is used. -/
theorem C109_linear_model (pinv : Matrix (n ⊕ Unit) (n ⊕ Unit) ℝ → Matrix (n ⊕ Unit) (n ⊕ Unit) ℝ) (hpinv : ∀ A, A * pinv A * A = A) (Xo : Matrix m n ℝ) (y : m → ℝ) (w : n → ℝ) (b : ℝ) :
    ∑ i, ((∑ j, Xo i j * (weights pinv Xo y).1 j) + (weights pinv Xo y).2 - y i) ^ 2 ≤ ∑ i, ((∑ j, Xo i j * w j) + b - y i) ^ 2 := by
  set X : Matrix m (n ⊕ Unit) ℝ := fromCols Xo (fun _ _ => 1) with hX
  set G := pinv (Xᵀ * X) with hG
  set W := (G * Xᵀ) *ᵥ y with hW
  have hval : ∀ (V : n ⊕ Unit → ℝ) i, (X *ᵥ V) i = (∑ j, Xo i j * V (.inl j)) + V (.inr ()) := by
    intro V i
    simp [hX, mulVec, dotProduct, fromCols]
  -- the normal equations
  have h1 : Xᵀ * X * Gᵀ * (Xᵀ * X) = Xᵀ * X := by
    have := congrArg transpose (hpinv (Xᵀ * X))
    simp only [transpose_mul, transpose_transpose, ← hG] at this
    simpa [Matrix.mul_assoc] using this
  have h2 : X * (Gᵀ * (Xᵀ * X) - 1) = 0 := by
    have hz : (X * (Gᵀ * (Xᵀ * X) - 1))ᴴ * (X * (Gᵀ * (Xᵀ * X) - 1)) = 0 := by
      rw [conjTranspose_eq_transpose_of_trivial, transpose_mul, Matrix.mul_assoc, ← Matrix.mul_assoc Xᵀ, Matrix.mul_sub, Matrix.mul_one, ← Matrix.mul_assoc (Xᵀ * X), h1, sub_self, Matrix.mul_zero]
    exact conjTranspose_mul_self_eq_zero.1 hz
  have h3 : Xᵀ * X * (G * Xᵀ) = Xᵀ := by
    have := congrArg transpose h2
    rw [Matrix.mul_sub, Matrix.mul_one, transpose_sub, transpose_zero, sub_eq_zero] at this
    simp only [transpose_mul, transpose_transpose] at this
    rw [← Matrix.mul_assoc]
    exact this
  have hnormal : Xᵀ *ᵥ (X *ᵥ W - y) = 0 := by
    rw [mulVec_sub, hW, mulVec_mulVec, mulVec_mulVec, h3, sub_self]
  set V : n ⊕ Unit → ℝ := Sum.elim w (fun _ => b) with hV
  have hdec : X *ᵥ V - y = (X *ᵥ W - y) + X *ᵥ (V - W) := by
    rw [mulVec_sub]; abel
  have hcross : (X *ᵥ W - y) ⬝ᵥ (X *ᵥ (V - W)) = 0 := by
    rw [dotProduct_mulVec, ← mulVec_transpose, hnormal, zero_dotProduct]
  have hle : (X *ᵥ W - y) ⬝ᵥ (X *ᵥ W - y) ≤ (X *ᵥ V - y) ⬝ᵥ (X *ᵥ V - y) := by
    rw [hdec]
    simp only [add_dotProduct, dotProduct_add]
    rw [hcross, dotProduct_comm (X *ᵥ (V - W)) (X *ᵥ W - y), hcross]
    linarith [dot_self_nonneg (X *ᵥ (V - W))]
  have e1 : ∀ V : n ⊕ Unit → ℝ, (X *ᵥ V - y) ⬝ᵥ (X *ᵥ V - y) = ∑ i, ((∑ j, Xo i j * V (.inl j)) + V (.inr ()) - y i) ^ 2 := by
    intro V
    rw [dotProduct]
    refine Finset.sum_congr rfl fun i _ => ?_
    rw [Pi.sub_apply, hval, pow_two]
  rw [e1, e1] at hle
  exact hle

/-! ## Eigenvectors that are not orthogonal -/

theorem eig_scalar (a : ℝ) : IsEig ((a • (1 : Matrix n n ℝ))ᵀ * (a • 1)) (fun _ => a ^ 2) (1 : Matrix n n ℝ) ∧ OrthogonalIfEqual (fun _ : n => a ^ 2) (1 : Matrix n n ℝ) := by
  refine ⟨⟨?_, ?_, 1, by simp⟩, ?_⟩
  · ext i j
    by_cases h : i = j <;> simp [Matrix.one_apply, h, pow_two]
  · intro j
    simp [Matrix.one_apply]
  · intro i j hij _ _
    refine Finset.sum_eq_zero fun k _ => ?_
    by_cases h : k = i
    · subst h; simp [Matrix.one_apply, hij]
    · simp [Matrix.one_apply, h]

/-- C109, negative: `np.linalg.eig` (line 50) does not promise orthogonal eigenvectors for a multiple eigenvalue, but the code uses the transposed matrix of eigenvectors as their inverse (line 67). For a multiple of
the identity and any eigenvectors that are not orthogonal, `_svd_threshold` returns a matrix that does not solve the proximal problem: there is a strictly better one. -/
theorem C109_not_orthogonal_violation (eig : Matrix n n ℝ → (n → ℝ) × Matrix n n ℝ) (a tau : ℝ) (ht : 0 ≤ tau) (ha : tau < a)
    (he : (eig ((a • (1 : Matrix n n ℝ))ᵀ * (a • 1))).1 = fun _ => a ^ 2)
    (hV : (eig ((a • (1 : Matrix n n ℝ))ᵀ * (a • 1))).2 * (eig ((a • (1 : Matrix n n ℝ))ᵀ * (a • 1))).2ᵀ ≠ 1) :
    ∃ Z' : Matrix n n ℝ, frob (Z' - a • 1) (Z' - a • 1) / 2 + tau * nuclear Z' <
      frob ((svdThreshold eig (a • (1 : Matrix n n ℝ)) tau).1 - a • 1) ((svdThreshold eig (a • (1 : Matrix n n ℝ)) tau).1 - a • 1) / 2 + tau * nuclear (svdThreshold eig (a • (1 : Matrix n n ℝ)) tau).1 := by
  have h0 : 0 < a := lt_of_le_of_lt ht ha
  let eig' : Matrix n n ℝ → (n → ℝ) × Matrix n n ℝ := fun _ => (fun _ => a ^ 2, 1)
  have hval : ∀ g : Matrix n n ℝ → (n → ℝ) × Matrix n n ℝ, (g ((a • (1 : Matrix n n ℝ))ᵀ * (a • 1))).1 = (fun _ => a ^ 2) →
      (svdThreshold g (a • (1 : Matrix n n ℝ)) tau).1 = (a - tau) • ((g ((a • (1 : Matrix n n ℝ))ᵀ * (a • 1))).2 * (g ((a • (1 : Matrix n n ℝ))ᵀ * (a • 1))).2ᵀ) := by
    intro g hg
    unfold svdThreshold
    rw [hg]
    have hs : √(if a ^ 2 < 0 then 0 else a ^ 2) = a := by
      rw [if_neg (not_lt.2 (sq_nonneg a)), Real.sqrt_sq h0.le]
    simp only [hs, if_pos h0.ne']
    rw [max_eq_right (by linarith)]
    have d : ∀ c : ℝ, (diagonal fun _ => c : Matrix n n ℝ) = c • 1 := fun c => by rw [smul_one_eq_diagonal]
    rw [d, d]
    simp only [Matrix.mul_smul, Matrix.smul_mul, Matrix.mul_one, Matrix.one_mul, smul_smul]
    congr 1
    field_simp
  refine ⟨(svdThreshold eig' (a • (1 : Matrix n n ℝ)) tau).1, ?_⟩
  have hp := (C109_threshold_partial eig' (a • (1 : Matrix n n ℝ)) tau ht (eig_scalar a).1 (eig_scalar a).2).2 (svdThreshold eig (a • (1 : Matrix n n ℝ)) tau).1
  have hne : (svdThreshold eig (a • (1 : Matrix n n ℝ)) tau).1 - (svdThreshold eig' (a • (1 : Matrix n n ℝ)) tau).1 ≠ 0 := by
    rw [hval eig he, hval eig' rfl]
    intro h
    apply hV
    have h1 : (a - tau) • ((eig ((a • (1 : Matrix n n ℝ))ᵀ * (a • 1))).2 * (eig ((a • (1 : Matrix n n ℝ))ᵀ * (a • 1))).2ᵀ) = (a - tau) • (1 : Matrix n n ℝ) := by
      rw [sub_eq_zero] at h
      rw [h]
      simp [eig']
    exact smul_right_injective _ (sub_ne_zero.2 ha.ne') h1
  have hpos : 0 < frob ((svdThreshold eig (a • (1 : Matrix n n ℝ)) tau).1 - (svdThreshold eig' (a • (1 : Matrix n n ℝ)) tau).1) ((svdThreshold eig (a • (1 : Matrix n n ℝ)) tau).1 - (svdThreshold eig' (a • (1 : Matrix n n ℝ)) tau).1) := by
    generalize (svdThreshold eig (a • (1 : Matrix n n ℝ)) tau).1 - (svdThreshold eig' (a • (1 : Matrix n n ℝ)) tau).1 = A at hne
    rcases (frob_self_nonneg A).eq_or_lt with h | h
    · exfalso
      apply hne
      ext i j
      have h1 := (Finset.sum_eq_zero_iff_of_nonneg (fun i _ => Finset.sum_nonneg fun j _ => mul_self_nonneg (A i j))).1 h.symm i (Finset.mem_univ _)
      have h2 := (Finset.sum_eq_zero_iff_of_nonneg (fun j _ => mul_self_nonneg (A i j))).1 h1 j (Finset.mem_univ _)
      exact mul_self_eq_zero.1 h2
    · exact h
  linarith

/-! ## Examples -/

/-- Orthonormal eigenvectors exist: the assumption on `np.linalg.eig` can be met. -/
example : ∃ eig : Matrix n n ℝ → (n → ℝ) × Matrix n n ℝ, EigOK m eig := by
  classical
  have key : ∀ A : Matrix n n ℝ, A.IsHermitian → ∃ D V, IsEig A D V ∧ ∀ i j, i ≠ j → ∑ k, V k i * V k j = 0 := by
    intro A hA
    have hVV : (hA.eigenvectorUnitary : Matrix n n ℝ)ᵀ * (hA.eigenvectorUnitary : Matrix n n ℝ) = 1 := by
      have := (Matrix.mem_unitaryGroup_iff'.1 hA.eigenvectorUnitary.2)
      rwa [star_eq_conjTranspose, conjTranspose_eq_transpose_of_trivial] at this
    have hVV' : (hA.eigenvectorUnitary : Matrix n n ℝ) * (hA.eigenvectorUnitary : Matrix n n ℝ)ᵀ = 1 := mul_eq_one_comm.1 hVV
    refine ⟨hA.eigenvalues, hA.eigenvectorUnitary, ⟨?_, fun j => ?_, _, hVV'⟩, fun i j hij => ?_⟩
    · ext i j
      have := congrFun (hA.mulVec_eigenvectorBasis j) i
      rw [mul_diagonal, Matrix.mul_apply]
      simp only [mulVec, dotProduct, Pi.smul_apply, smul_eq_mul] at this
      simp only [IsHermitian.eigenvectorUnitary_apply]
      rw [this, mul_comm]
    · have := congrFun (congrFun hVV j) j
      simpa [Matrix.mul_apply] using this
    · have := congrFun (congrFun hVV i) j
      simpa [Matrix.mul_apply, Matrix.one_apply, hij] using this
  have hH : ∀ M : Matrix m n ℝ, (Mᵀ * M).IsHermitian := by
    intro M
    have := isHermitian_conjTranspose_mul_self M
    rwa [conjTranspose_eq_transpose_of_trivial] at this
  refine ⟨fun A => if h : A.IsHermitian then ((key A h).choose, (key A h).choose_spec.choose) else (0, 0), fun M => ?_⟩
  simp only [hH M, dif_pos]
  have := (key _ (hH M)).choose_spec.choose_spec
  exact ⟨this.1, fun i j hij _ _ => this.2 i j hij⟩

/-- Eigenvectors of length one that are not orthogonal. -/
example : let V : Matrix (Fin 2) (Fin 2) ℝ := !![1, 3/5; 0, 4/5]
    IsEig (((2 : ℝ) • (1 : Matrix (Fin 2) (Fin 2) ℝ))ᵀ * ((2 : ℝ) • 1)) (fun _ => 2 ^ 2) V ∧ V * Vᵀ ≠ 1 := by
  refine ⟨⟨?_, ?_, !![1, -3/4; 0, 5/4], ?_⟩, ?_⟩
  · ext i j; fin_cases i <;> fin_cases j <;> simp [Matrix.mul_apply, Fin.sum_univ_two] <;> norm_num
  · intro j; fin_cases j <;> simp [Fin.sum_univ_two] <;> norm_num
  · ext i j; fin_cases i <;> fin_cases j <;> simp [Matrix.mul_apply, Fin.sum_univ_two] <;> norm_num
  · intro h
    have := congrFun (congrFun h 0) 1
    simp [Matrix.mul_apply, Fin.sum_univ_two] at this

/-- A mask, and a curvature that one doubling suffices for. -/
example : IsMaskOf (!![1, 0; 1, 1] : Matrix (Fin 2) (Fin 2) ℝ) (fun i j => (i, j) ≠ (0, 1)) ∧ 1 + 2 * ((1 : ℝ) / Fintype.card (Fin 2)) * (![1, 1] ⬝ᵥ ![1, 1]) ≤ 2 ^ (1 + 1) := by
  constructor
  · intro i j; fin_cases i <;> fin_cases j <;> simp
  · simp; norm_num

end Alipy.Afasmc

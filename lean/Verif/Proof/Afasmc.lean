import Verif.Spec.Afasmc
import Mathlib.Analysis.SpecialFunctions.Pow.Real
import Mathlib.Tactic.Linarith
import Mathlib.Tactic.LinearCombination
import Mathlib.Algebra.BigOperators.Field
import Mathlib.LinearAlgebra.Matrix.DotProduct
import Mathlib.LinearAlgebra.Matrix.Symmetric

/-! Inner products of matrices, the nuclear norm and its proximal operator. -/
namespace Alipy.AfasmcProof
open Matrix Spec

set_option linter.unusedSectionVars false

variable {m n : Type} [Fintype m] [Fintype n] [DecidableEq n]

theorem frob_comm (A B : Matrix m n ℝ) : frob A B = frob B A := by
  simp only [frob, mul_comm]

theorem frob_add_left (A B C : Matrix m n ℝ) : frob (A + B) C = frob A C + frob B C := by
  simp only [frob, Matrix.add_apply, add_mul, Finset.sum_add_distrib]

theorem frob_smul_left (a : ℝ) (A C : Matrix m n ℝ) : frob (a • A) C = a * frob A C := by
  simp only [frob, Matrix.smul_apply, smul_eq_mul, Finset.mul_sum, mul_assoc]

theorem frob_neg_left (A C : Matrix m n ℝ) : frob (-A) C = -frob A C := by
  simp only [frob, Matrix.neg_apply, neg_mul, Finset.sum_neg_distrib]

theorem frob_sub_left (A B C : Matrix m n ℝ) : frob (A - B) C = frob A C - frob B C := by
  rw [sub_eq_add_neg, frob_add_left, frob_neg_left, sub_eq_add_neg]

theorem frob_add_right (A B C : Matrix m n ℝ) : frob C (A + B) = frob C A + frob C B := by
  rw [frob_comm, frob_add_left, frob_comm A, frob_comm B]

theorem frob_sub_right (A B C : Matrix m n ℝ) : frob C (A - B) = frob C A - frob C B := by
  rw [frob_comm, frob_sub_left, frob_comm A, frob_comm B]

theorem frob_smul_right (a : ℝ) (A C : Matrix m n ℝ) : frob C (a • A) = a * frob C A := by
  rw [frob_comm, frob_smul_left, frob_comm]

theorem frob_sum_left {ι : Type} (s : Finset ι) (A : ι → Matrix m n ℝ) (C : Matrix m n ℝ) : frob (∑ k ∈ s, A k) C = ∑ k ∈ s, frob (A k) C := by
  classical
  induction s using Finset.induction_on with
  | empty => simp [frob]
  | insert a s ha ih => rw [Finset.sum_insert ha, Finset.sum_insert ha, frob_add_left, ih]

theorem frob_sum_right {ι : Type} (s : Finset ι) (A : ι → Matrix m n ℝ) (C : Matrix m n ℝ) : frob C (∑ k ∈ s, A k) = ∑ k ∈ s, frob C (A k) := by
  rw [frob_comm, frob_sum_left]
  exact Finset.sum_congr rfl fun k _ => frob_comm _ _

theorem frob_self_nonneg (A : Matrix m n ℝ) : 0 ≤ frob A A :=
  Finset.sum_nonneg fun _ _ => Finset.sum_nonneg fun _ _ => mul_self_nonneg _

theorem frob_vecMulVec (u : m → ℝ) (v : n → ℝ) (B : Matrix m n ℝ) : frob (vecMulVec u v) B = u ⬝ᵥ (B *ᵥ v) := by
  simp only [frob, vecMulVec_apply, dotProduct, mulVec, Finset.mul_sum]
  exact Finset.sum_congr rfl fun i _ => Finset.sum_congr rfl fun j _ => by ring

theorem frob_vecMulVec₂ (u u' : m → ℝ) (v v' : n → ℝ) : frob (vecMulVec u v) (vecMulVec u' v') = (u ⬝ᵥ u') * (v ⬝ᵥ v') := by
  simp only [frob, dotProduct, vecMulVec_apply, Finset.sum_mul_sum]
  exact Finset.sum_congr rfl fun i _ => Finset.sum_congr rfl fun j _ => by ring

theorem dot_self_nonneg {k : Type} [Fintype k] (x : k → ℝ) : 0 ≤ x ⬝ᵥ x := Finset.sum_nonneg fun _ _ => mul_self_nonneg _

theorem dot_cs {k : Type} [Fintype k] (x y : k → ℝ) : (x ⬝ᵥ y) ^ 2 ≤ (x ⬝ᵥ x) * (y ⬝ᵥ y) := by
  have := Finset.sum_mul_sq_le_sq_mul_sq Finset.univ x y
  simp only [dotProduct, ← pow_two]
  exact this

/-! ## Orthonormal families, some members of which may be zero -/

/-- `χ` marks the members that are not zero. -/
structure Fam {k : Type} [Fintype k] (e : n → k → ℝ) (χ : n → ℝ) : Prop where
  chi : ∀ i, χ i = 0 ∨ χ i = 1
  gram : ∀ i j, e i ⬝ᵥ e j = if i = j then χ i else 0

theorem Fam.chi_sq {k : Type} [Fintype k] {e : n → k → ℝ} {χ : n → ℝ} (h : Fam e χ) (i : n) : χ i * χ i = χ i := by
  rcases h.chi i with h | h <;> simp [h]

theorem sum_dot {k ι : Type} [Fintype k] (s : Finset ι) (c : ι → ℝ) (e : ι → k → ℝ) (x : k → ℝ) : (∑ i ∈ s, c i • e i) ⬝ᵥ x = ∑ i ∈ s, c i * (e i ⬝ᵥ x) := by
  rw [sum_dotProduct]
  simp only [smul_dotProduct, smul_eq_mul]

theorem Fam.norm {k : Type} [Fintype k] {e : n → k → ℝ} {χ : n → ℝ} (h : Fam e χ) (c : n → ℝ) :
    (∑ i, c i • e i) ⬝ᵥ (∑ i, c i • e i) = ∑ i, c i ^ 2 * χ i := by
  rw [sum_dot]
  refine Finset.sum_congr rfl fun i _ => ?_
  rw [dotProduct_comm, sum_dot]
  simp only [h.gram]
  rw [Finset.sum_eq_single i]
  · simp; ring
  · intro j _ hj
    simp [hj]
  · simp

theorem Fam.bessel {k : Type} [Fintype k] {e : n → k → ℝ} {χ : n → ℝ} (h : Fam e χ) (x : k → ℝ) : ∑ i, (e i ⬝ᵥ x) ^ 2 * χ i ≤ x ⬝ᵥ x := by
  have h1 := dot_self_nonneg (x - ∑ i, ((e i ⬝ᵥ x) * χ i) • e i)
  have h2 := h.norm fun i => (e i ⬝ᵥ x) * χ i
  have h3 : (∑ i, ((e i ⬝ᵥ x) * χ i) • e i) ⬝ᵥ x = ∑ i, (e i ⬝ᵥ x) ^ 2 * χ i := by
    rw [sum_dot]
    exact Finset.sum_congr rfl fun i _ => by ring
  have h4 : ∑ i, ((e i ⬝ᵥ x) * χ i) ^ 2 * χ i = ∑ i, (e i ⬝ᵥ x) ^ 2 * χ i := by
    refine Finset.sum_congr rfl fun i _ => ?_
    rcases h.chi i with h | h <;> simp [h]
  rw [sub_dotProduct, dotProduct_sub, dotProduct_sub, h2, h4, h3, dotProduct_comm x (∑ i, _), h3] at h1
  linarith

/-- The matrix with singular vectors `u`, `e` and singular values `c`. -/
def dy (u : n → m → ℝ) (e : n → n → ℝ) (c : n → ℝ) : Matrix m n ℝ := ∑ i, c i • vecMulVec (u i) (e i)

theorem dy_mulVec (u : n → m → ℝ) (e : n → n → ℝ) (c : n → ℝ) (x : n → ℝ) : dy u e c *ᵥ x = ∑ i, (c i * (e i ⬝ᵥ x)) • u i := by
  simp only [dy, Matrix.sum_mulVec, smul_mulVec, vecMulVec_mulVec]
  refine Finset.sum_congr rfl fun i _ => ?_
  rw [mul_smul]
  congr 1
  ext k
  simp [mul_comm]

theorem dy_contraction {u : n → m → ℝ} {e : n → n → ℝ} {χ : n → ℝ} (hu : Fam u χ) (he : Fam e χ) {c : n → ℝ} (h0 : ∀ i, 0 ≤ c i) (h1 : ∀ i, c i ≤ 1) : Contraction (dy u e c) := by
  intro x
  rw [dy_mulVec, hu.norm]
  refine le_trans (Finset.sum_le_sum fun i _ => ?_) (he.bessel x)
  have hc : c i ^ 2 ≤ 1 := by nlinarith [h0 i, h1 i]
  have hx : 0 ≤ (e i ⬝ᵥ x) ^ 2 * χ i := by
    rcases he.chi i with h | h <;> simp [h]
    positivity
  nlinarith

theorem frob_dy (u : n → m → ℝ) (e : n → n → ℝ) (c : n → ℝ) (B : Matrix m n ℝ) : frob (dy u e c) B = ∑ i, c i * (u i ⬝ᵥ (B *ᵥ e i)) := by
  simp only [dy, frob_sum_left, frob_smul_left, frob_vecMulVec]

theorem frob_dy₂ {u : n → m → ℝ} {e : n → n → ℝ} {χ : n → ℝ} (hu : Fam u χ) (he : Fam e χ) (c c' : n → ℝ) : frob (dy u e c) (dy u e c') = ∑ i, c i * c' i * χ i := by
  simp only [dy, frob_sum_left, frob_smul_left, frob_sum_right, frob_smul_right, frob_vecMulVec₂, hu.gram, he.gram]
  refine Finset.sum_congr rfl fun i _ => ?_
  rw [Finset.sum_eq_single i]
  · simp only [if_true, hu.chi_sq]; ring
  · intro j _ hj
    simp [hj]
  · simp

/-! ## The nuclear norm -/

theorem contraction_zero : Contraction (0 : Matrix m n ℝ) := by
  intro x
  simp only [zero_mulVec, dotProduct_zero]
  exact dot_self_nonneg x

theorem contraction_entry {W : Matrix m n ℝ} (h : Contraction W) (i : m) (j : n) : |W i j| ≤ 1 := by
  have h1 := h (Pi.single j 1)
  have h2 : (W *ᵥ Pi.single j 1) = fun k => W k j := by
    ext k; simp
  rw [h2] at h1
  have h3 : (Pi.single j (1 : ℝ) : n → ℝ) ⬝ᵥ Pi.single j 1 = 1 := by simp
  rw [h3] at h1
  have h4 : W i j * W i j ≤ ∑ k, W k j * W k j := Finset.single_le_sum (f := fun k => W k j * W k j) (fun k _ => mul_self_nonneg _) (Finset.mem_univ i)
  have h5 : W i j * W i j ≤ 1 := le_trans h4 h1
  exact abs_le_one_iff_mul_self_le_one.2 h5

theorem frob_le {W : Matrix m n ℝ} (h : Contraction W) (Z : Matrix m n ℝ) : frob W Z ≤ ∑ i, ∑ j, |Z i j| := by
  refine Finset.sum_le_sum fun i _ => Finset.sum_le_sum fun j _ => ?_
  calc W i j * Z i j ≤ |W i j * Z i j| := le_abs_self _
    _ = |W i j| * |Z i j| := abs_mul _ _
    _ ≤ 1 * |Z i j| := mul_le_mul_of_nonneg_right (contraction_entry h i j) (abs_nonneg _)
    _ = |Z i j| := one_mul _

theorem nuclear_bdd (Z : Matrix m n ℝ) : BddAbove {t | ∃ W : Matrix m n ℝ, Contraction W ∧ t = frob W Z} :=
  ⟨_, fun t ⟨W, hW, ht⟩ => by rw [ht]; exact frob_le hW Z⟩

theorem le_nuclear {W : Matrix m n ℝ} (h : Contraction W) (Z : Matrix m n ℝ) : frob W Z ≤ nuclear Z := le_csSup (nuclear_bdd Z) ⟨W, h, rfl⟩

theorem nuclear_le {Z : Matrix m n ℝ} {t : ℝ} (h : ∀ W : Matrix m n ℝ, Contraction W → frob W Z ≤ t) : nuclear Z ≤ t :=
  csSup_le ⟨_, 0, contraction_zero, rfl⟩ fun _ ⟨W, hW, ht⟩ => by rw [ht]; exact h W hW

theorem nuclear_nonneg (Z : Matrix m n ℝ) : 0 ≤ nuclear Z := by
  have := le_nuclear contraction_zero Z
  have h0 : frob (0 : Matrix m n ℝ) Z = 0 := by simp [frob]
  linarith

theorem nuclear_convex (A B : Matrix m n ℝ) {t : ℝ} (h0 : 0 ≤ t) (h1 : t ≤ 1) : nuclear ((1 - t) • A + t • B) ≤ (1 - t) * nuclear A + t * nuclear B := by
  refine nuclear_le fun W hW => ?_
  rw [frob_add_right, frob_smul_right, frob_smul_right]
  have ha := mul_le_mul_of_nonneg_left (le_nuclear hW A) (by linarith : 0 ≤ 1 - t)
  have hb := mul_le_mul_of_nonneg_left (le_nuclear hW B) h0
  linarith

theorem nuclear_dy {u : n → m → ℝ} {e : n → n → ℝ} {χ : n → ℝ} (hu : Fam u χ) (he : Fam e χ) {c : n → ℝ} (h0 : ∀ i, 0 ≤ c i) (hc : ∀ i, χ i = 0 → c i = 0) :
    nuclear (dy u e c) = ∑ i, c i := by
  apply le_antisymm
  · refine nuclear_le fun W hW => ?_
    rw [frob_comm, frob_dy]
    refine Finset.sum_le_sum fun i _ => ?_
    have h1 := dot_cs (u i) (W *ᵥ e i)
    have h2 := hW (e i)
    rw [hu.gram, if_pos rfl] at h1
    rw [he.gram, if_pos rfl] at h2
    have h3 : u i ⬝ᵥ (W *ᵥ e i) ≤ 1 := by
      have : (u i ⬝ᵥ (W *ᵥ e i)) ^ 2 ≤ 1 := by
        rcases hu.chi i with h | h <;> rw [h] at h1 h2 <;> nlinarith
      nlinarith
    nlinarith [h0 i]
  · have h1 := le_nuclear (dy_contraction hu he (c := fun _ => 1) (by simp) (by simp)) (dy u e c)
    rw [frob_dy₂ hu he] at h1
    refine le_trans (le_of_eq (Finset.sum_congr rfl fun i _ => ?_)) h1
    rcases hu.chi i with h | h
    · simp [hc i h]
    · simp [h]

/-- Shrinking the singular values solves the proximal problem, with a margin. -/
theorem prox_dy {u : n → m → ℝ} {e : n → n → ℝ} {χ : n → ℝ} (hu : Fam u χ) (he : Fam e χ) {sg : n → ℝ} (h0 : ∀ i, 0 ≤ sg i) (hs : ∀ i, χ i = 0 → sg i = 0)
    {tau : ℝ} (ht : 0 ≤ tau) (Z' : Matrix m n ℝ) :
    frob (dy u e (fun i => max 0 (sg i - tau)) - dy u e sg) (dy u e (fun i => max 0 (sg i - tau)) - dy u e sg) / 2 + tau * nuclear (dy u e fun i => max 0 (sg i - tau)) +
      frob (Z' - dy u e fun i => max 0 (sg i - tau)) (Z' - dy u e fun i => max 0 (sg i - tau)) / 2 ≤ frob (Z' - dy u e sg) (Z' - dy u e sg) / 2 + tau * nuclear Z' := by
  set c : n → ℝ := fun i => max 0 (sg i - tau) with hc
  have hc0 : ∀ i, 0 ≤ c i := fun i => le_max_left _ _
  have hcs : ∀ i, χ i = 0 → c i = 0 := by
    intro i hi
    simp only [hc, hs i hi]
    exact max_eq_left (by linarith)
  have hsub : dy u e sg - dy u e c = dy u e fun i => sg i - c i := by
    simp only [dy, sub_smul, Finset.sum_sub_distrib]
  have hcle : ∀ i, c i ≤ sg i := fun i => max_le (h0 i) (by linarith)
  have hd : ∀ i, sg i - c i ≤ tau := by
    intro i
    have := le_max_right 0 (sg i - tau)
    simp only [hc]; linarith
  -- the difference is `tau` times a contraction
  have hcert : frob (dy u e sg - dy u e c) Z' ≤ tau * nuclear Z' := by
    rcases ht.eq_or_lt with h | h
    · have : dy u e sg - dy u e c = 0 := by
        rw [hsub]
        have : (fun i => sg i - c i) = 0 := by
          funext i
          have := hd i; have := hcle i
          simp only [Pi.zero_apply]; linarith
        rw [this]; simp [dy]
      rw [this, ← h]
      simp [frob]
    · have hW : Contraction (dy u e fun i => (sg i - c i) / tau) :=
        dy_contraction hu he (fun i => div_nonneg (by linarith [hcle i]) ht) (fun i => (div_le_one h).2 (hd i))
      have := mul_le_mul_of_nonneg_left (le_nuclear hW Z') ht
      rw [hsub]
      refine le_trans (le_of_eq ?_) this
      rw [← frob_smul_left]
      congr 1
      simp only [dy, Finset.smul_sum, smul_smul]
      refine Finset.sum_congr rfl fun i _ => ?_
      congr 1
      field_simp
  have heq : frob (dy u e sg - dy u e c) (dy u e c) = tau * nuclear (dy u e c) := by
    rw [nuclear_dy hu he hc0 hcs, hsub, frob_dy₂ hu he, Finset.mul_sum]
    refine Finset.sum_congr rfl fun i _ => ?_
    rcases hu.chi i with h | h
    · simp [h, hcs i h]
    · rw [h]
      simp only [hc]
      rcases le_total 0 (sg i - tau) with h' | h'
      · rw [max_eq_right h']; ring
      · rw [max_eq_left h']; ring
  rw [← heq]
  simp only [frob_sub_left, frob_sub_right] at hcert ⊢
  have c1 := frob_comm Z' (dy u e sg)
  have c2 := frob_comm Z' (dy u e c)
  have c3 := frob_comm (dy u e sg) (dy u e c)
  linarith

/-! ## The decomposition computed by `_svd_threshold` -/

theorem eig_fam {M : Matrix m n ℝ} {D : n → ℝ} {V : Matrix n n ℝ} (h : IsEig (Mᵀ * M) D V) (ho : OrthogonalIfEqual D V) :
    (∀ i, 0 ≤ D i) ∧ Fam (fun i => if D i = 0 then 0 else fun k => V k i) (fun i => if D i = 0 then 0 else 1) ∧
      Fam (fun i => if D i = 0 then 0 else (1 / √(D i)) • (M *ᵥ fun k => V k i)) (fun i => if D i = 0 then 0 else 1) ∧
      M = dy (fun i => if D i = 0 then 0 else (1 / √(D i)) • (M *ᵥ fun k => V k i)) (fun i => if D i = 0 then 0 else fun k => V k i) (fun i => √(D i)) := by
  have hAv : ∀ j, (Mᵀ * M) *ᵥ (fun k => V k j) = D j • fun k => V k j := by
    intro j
    ext i
    have := congrFun (congrFun h.eigen i) j
    rw [mul_diagonal, Matrix.mul_apply] at this
    simp only [mulVec, dotProduct, Pi.smul_apply, smul_eq_mul]
    rw [this, mul_comm]
  have hMM : ∀ i j, (M *ᵥ fun k => V k i) ⬝ᵥ (M *ᵥ fun k => V k j) = D j * ((fun k => V k i) ⬝ᵥ fun k => V k j) := by
    intro i j
    rw [← smul_eq_mul, ← dotProduct_smul, ← hAv j, ← mulVec_mulVec, dotProduct_mulVec _ Mᵀ, vecMul_transpose]
  have hunit : ∀ i, (fun k => V k i) ⬝ᵥ (fun k => V k i) = 1 := fun i => h.unit i
  have hD : ∀ i, 0 ≤ D i := by
    intro i
    have := hMM i i
    rw [hunit, mul_one] at this
    rw [← this]; exact dot_self_nonneg _
  have horth : ∀ i j, i ≠ j → (D i ≠ 0 ∨ D j ≠ 0) → (fun k => V k i) ⬝ᵥ (fun k => V k j) = 0 := by
    intro i j hij hne
    by_cases he : D i = D j
    · exact ho i j hij he (by rcases hne with h | h; exact h; rw [he]; exact h)
    · have h1 := hMM i j
      have h2 := hMM j i
      rw [dotProduct_comm, h2, dotProduct_comm (fun k => V k j)] at h1
      have : (D i - D j) * ((fun k => V k i) ⬝ᵥ fun k => V k j) = 0 := by linarith
      rcases mul_eq_zero.1 this with h | h
      · exact absurd (sub_eq_zero.1 h) he
      · exact h
  have hs : ∀ i, D i ≠ 0 → √(D i) * √(D i) = D i ∧ √(D i) ≠ 0 := fun i hi => ⟨Real.mul_self_sqrt (hD i), fun h0 => hi (by rw [Real.sqrt_eq_zero (hD i)] at h0; exact h0)⟩
  have fe : Fam (fun i => if D i = 0 then 0 else fun k => V k i) (fun i => if D i = 0 then (0 : ℝ) else 1) := by
    refine ⟨fun i => by by_cases hi : D i = 0 <;> simp [hi], fun i j => ?_⟩
    by_cases hi : D i = 0
    · simp [hi]
    · by_cases hij : i = j
      · subst hij; simp only [hi, if_false, if_true]; exact hunit i
      · simp only [hi, if_false, hij]
        by_cases hj : D j = 0
        · simp [hj]
        · simp only [hj, if_false]; exact horth i j hij (.inl hi)
  refine ⟨hD, fe, ⟨fun i => by by_cases hi : D i = 0 <;> simp [hi], fun i j => ?_⟩, ?_⟩
  · by_cases hi : D i = 0
    · simp [hi]
    · by_cases hj : D j = 0
      · simp only [hj, if_true, dotProduct_zero]
        by_cases hij : i = j
        · subst hij; exact absurd hj hi
        · simp [hij]
      · simp only [hi, hj, if_false, smul_dotProduct, dotProduct_smul, smul_eq_mul, hMM]
        by_cases hij : i = j
        · subst hij
          rw [hunit]
          obtain ⟨h1, h2⟩ := hs i hi
          simp only [if_true]
          field_simp
          rw [pow_two, h1]
        · rw [horth i j hij (.inl hi)]
          simp [hij]
  · -- both sides agree on all eigenvectors
    have key : ∀ j, M *ᵥ (fun k => V k j) = dy (fun i => if D i = 0 then 0 else (1 / √(D i)) • (M *ᵥ fun k => V k i)) (fun i => if D i = 0 then 0 else fun k => V k i) (fun i => √(D i)) *ᵥ (fun k => V k j) := by
      intro j
      rw [dy_mulVec]
      have hterm : ∀ i, i ≠ j → (√(D i) * ((if D i = 0 then 0 else fun k => V k i) ⬝ᵥ fun k => V k j)) • (if D i = 0 then 0 else (1 / √(D i)) • (M *ᵥ fun k => V k i)) = 0 := by
        intro i hij
        by_cases hi : D i = 0
        · simp [hi]
        · simp only [hi, if_false]
          rw [horth i j hij (.inl hi)]
          simp
      rw [Finset.sum_eq_single j (fun i _ hij => hterm i hij) (by simp)]
      by_cases hj : D j = 0
      · simp only [hj, if_true, smul_zero]
        have := hMM j j
        rw [hj, zero_mul] at this
        exact dotProduct_self_eq_zero.1 this
      · simp only [hj, if_false]
        rw [hunit, smul_smul, mul_one, mul_one_div_cancel (hs j hj).2, one_smul]
    obtain ⟨V', hV'⟩ := h.span
    have hmul : M * V = dy (fun i => if D i = 0 then 0 else (1 / √(D i)) • (M *ᵥ fun k => V k i)) (fun i => if D i = 0 then 0 else fun k => V k i) (fun i => √(D i)) * V := by
      ext i j
      exact congrFun (key j) i
    have := congrArg (· * V') hmul
    simp only [Matrix.mul_assoc, hV', Matrix.mul_one] at this
    exact this

end Alipy.AfasmcProof

import Verif.Spec.SvdTrace
import Mathlib.Analysis.InnerProductSpace.PiL2
import Mathlib.Analysis.Matrix.Spectrum
import Mathlib.Data.Fin.Tuple.Sort
import Mathlib.Algebra.Order.BigOperators.Group.Finset

/-! # The theorem of Eckart and Young: the truncated singular value decomposition is a best approximation of its rank -/
namespace Alipy.Proof
open Spec

variable {r c : Nat}

/-- A row of a matrix as a vector. -/
noncomputable def rowV (A : Fin r → Fin c → ℝ) (i : Fin r) : EuclideanSpace ℝ (Fin c) := WithLp.toLp 2 (A i)

theorem inner_toLp (f g : Fin c → ℝ) : inner ℝ (WithLp.toLp 2 f : EuclideanSpace ℝ (Fin c)) (WithLp.toLp 2 g) = ∑ x, f x * g x := by
  rw [PiLp.inner_apply]
  refine Finset.sum_congr rfl fun x _ => ?_
  simp [mul_comm]

theorem errOn_rows (A B : Fin r → Fin c → ℝ) : errOn (fun _ _ => True) A B = ∑ i, ‖rowV A i - rowV B i‖ ^ 2 := by
  unfold errOn
  refine Finset.sum_congr rfl fun i _ => ?_
  rw [EuclideanSpace.real_norm_sq_eq]
  simp [rowV]

/-- Numbers that descend, weighted with weights between 0 and 1 that sum up to at most `k`: at most the sum of the first `k`. -/
theorem weighted_le (lam t : Fin c → ℝ) (hs : Antitone lam) (h0 : ∀ j, 0 ≤ lam j) (ht0 : ∀ j, 0 ≤ t j) (ht1 : ∀ j, t j ≤ 1) (k : Nat) (hk : ∑ j, t j ≤ k) :
    ∑ j, lam j * t j ≤ ∑ j, if j.val < k then lam j else 0 := by
  by_cases hc : k < c
  · set m : ℝ := lam ⟨k, hc⟩ with hm
    have hm0 : 0 ≤ m := h0 _
    have key : ∀ j : Fin c, lam j * t j ≤ (if j.val < k then lam j else 0) + m * t j - (if j.val < k then m else 0) := by
      intro j
      by_cases hj : j.val < k
      · simp only [hj, if_true]
        have : m ≤ lam j := hs (show j ≤ ⟨k, hc⟩ from Fin.le_def.2 hj.le)
        nlinarith [ht1 j]
      · simp only [hj, if_false]
        have : lam j ≤ m := hs (show (⟨k, hc⟩ : Fin c) ≤ j from Fin.le_def.2 (not_lt.1 hj))
        nlinarith [ht0 j]
    have hcount : ∑ j : Fin c, (if j.val < k then m else 0) = k * m := by
      rw [← Finset.sum_filter, Finset.sum_const, nsmul_eq_mul]
      congr 2
      have : (Finset.univ.filter (fun j : Fin c => j.val < k)).card = k := by
        have e : (Finset.univ.filter (fun j : Fin c => j.val < k)) = Finset.Iio (⟨k, hc⟩ : Fin c) := by
          ext j; simp [Fin.lt_def]
        rw [e, Fin.card_Iio]
      exact this
    calc ∑ j, lam j * t j ≤ ∑ j : Fin c, ((if j.val < k then lam j else 0) + m * t j - (if j.val < k then m else 0)) := Finset.sum_le_sum fun j _ => key j
      _ = (∑ j : Fin c, if j.val < k then lam j else 0) + m * ∑ j, t j - k * m := by
        rw [Finset.sum_sub_distrib, Finset.sum_add_distrib, hcount, Finset.mul_sum]
      _ ≤ _ := by nlinarith
  · refine Finset.sum_le_sum fun j _ => ?_
    rw [if_pos (by omega)]
    nlinarith [ht1 j, h0 j]

variable {A : Fin r → Fin c → ℝ} {V : Fin c → Fin c → ℝ} {lam : Fin c → ℝ}

/-- The right singular vectors as an orthonormal basis. -/
theorem exists_basis (h : RightSingular A V lam) :
    ∃ b : OrthonormalBasis (Fin c) ℝ (EuclideanSpace ℝ (Fin c)), ∀ j, b j = WithLp.toLp 2 (V j) := by
  have ho : Orthonormal ℝ (fun j => (WithLp.toLp 2 (V j) : EuclideanSpace ℝ (Fin c))) := by
    rw [orthonormal_iff_ite]
    intro i j
    rw [inner_toLp, h.unit]
  have hs : ⊤ ≤ Submodule.span ℝ (Set.range (fun j => (WithLp.toLp 2 (V j) : EuclideanSpace ℝ (Fin c)))) := by
    rw [ho.linearIndependent.span_eq_top_of_card_eq_finrank' (by simp)]
  exact ⟨OrthonormalBasis.mk ho hs, fun j => by rw [OrthonormalBasis.coe_mk]⟩

theorem row_inner (h : RightSingular A V lam) {b : OrthonormalBasis (Fin c) ℝ (EuclideanSpace ℝ (Fin c))} (hb : ∀ j, b j = WithLp.toLp 2 (V j))
    (j : Fin c) (w : EuclideanSpace ℝ (Fin c)) : ∑ i, inner ℝ (rowV A i) (b j) * inner ℝ (rowV A i) w = lam j * inner ℝ (b j) w := by
  have e : ∑ i, inner ℝ (rowV A i) (b j) • rowV A i = lam j • b j := by
    ext y
    rw [hb]
    simp only [rowV, inner_toLp, WithLp.ofLp_sum, WithLp.ofLp_smul, Finset.sum_apply, Pi.smul_apply, smul_eq_mul]
    exact h.eigen j y
  have := congrArg (fun v => inner ℝ v w) e
  simp only [sum_inner, real_inner_smul_left] at this
  exact this

/-- `∑ ⟨aᵢ, w⟩²` in terms of the singular vectors. -/
theorem sum_inner_sq (h : RightSingular A V lam) {b : OrthonormalBasis (Fin c) ℝ (EuclideanSpace ℝ (Fin c))} (hb : ∀ j, b j = WithLp.toLp 2 (V j))
    (w : EuclideanSpace ℝ (Fin c)) : ∑ i, inner ℝ (rowV A i) w ^ 2 = ∑ j, lam j * inner ℝ (b j) w ^ 2 := by
  have e : ∀ i, inner ℝ (rowV A i) w ^ 2 = ∑ j, inner ℝ (rowV A i) (b j) * inner ℝ (rowV A i) w * inner ℝ (b j) w := by
    intro i
    have : inner ℝ (rowV A i) w = ∑ j, inner ℝ (rowV A i) (b j) * inner ℝ (b j) w := (b.sum_inner_mul_inner _ _).symm
    rw [pow_two]
    nth_rw 1 [this]
    rw [Finset.sum_mul]
    exact Finset.sum_congr rfl fun j _ => by ring
  simp only [e]
  rw [Finset.sum_comm]
  refine Finset.sum_congr rfl fun j _ => ?_
  rw [← Finset.sum_mul, row_inner h hb]
  ring

theorem lam_eq (h : RightSingular A V lam) {b : OrthonormalBasis (Fin c) ℝ (EuclideanSpace ℝ (Fin c))} (hb : ∀ j, b j = WithLp.toLp 2 (V j)) (j : Fin c) :
    lam j = ∑ i, inner ℝ (rowV A i) (b j) ^ 2 := by
  have := row_inner h hb j (b j)
  rw [real_inner_self_eq_norm_sq, b.norm_eq_one] at this
  simp only [pow_two]
  linarith

theorem lam_nonneg (h : RightSingular A V lam) (j : Fin c) : 0 ≤ lam j := by
  obtain ⟨b, hb⟩ := exists_basis h
  rw [lam_eq h hb]
  exact Finset.sum_nonneg fun i _ => sq_nonneg _

/-- The error of the truncated decomposition. -/
theorem err_truncated (h : RightSingular A V lam) (k : Nat) {B : Fin r → Fin c → ℝ}
    (hB : ∀ i y, B i y = ∑ j, if j.val < k then (∑ x, A i x * V j x) * V j y else 0) :
    errOn (fun _ _ => True) A B = ∑ i, ‖rowV A i‖ ^ 2 - ∑ j, if j.val < k then lam j else 0 := by
  obtain ⟨b, hb⟩ := exists_basis h
  have hrow : ∀ i, rowV B i = ∑ j, (if j.val < k then inner ℝ (rowV A i) (b j) else 0) • b j := by
    intro i
    ext y
    simp only [WithLp.ofLp_sum, WithLp.ofLp_smul, Finset.sum_apply, Pi.smul_apply, smul_eq_mul, hb]
    simp only [rowV, inner_toLp, hB]
    refine Finset.sum_congr rfl fun j _ => ?_
    split <;> simp
  have hone : ∀ i, ‖rowV A i - rowV B i‖ ^ 2 = ‖rowV A i‖ ^ 2 - ∑ j, if j.val < k then inner ℝ (rowV A i) (b j) ^ 2 else 0 := by
    intro i
    have e1 : ∀ j, inner ℝ (b j) (rowV B i) = if j.val < k then inner ℝ (rowV A i) (b j) else 0 := by
      intro j
      rw [hrow, b.orthonormal.inner_right_fintype]
    rw [← b.sum_sq_norm_inner_right (rowV A i - rowV B i), ← b.sum_sq_norm_inner_right (rowV A i), ← Finset.sum_sub_distrib]
    refine Finset.sum_congr rfl fun j _ => ?_
    rw [inner_sub_right, e1, real_inner_comm]
    split <;> simp
  rw [errOn_rows]
  simp only [hone]
  rw [Finset.sum_sub_distrib, Finset.sum_comm]
  congr 1
  refine Finset.sum_congr rfl fun j _ => ?_
  split
  · rw [lam_eq h hb]
  · simp

/-- No matrix of rank `k` is nearer. -/
theorem err_lower (h : RightSingular A V lam) (k : Nat) {C : Fin r → Fin c → ℝ} (hC : RankLE k C) :
    ∑ i, ‖rowV A i‖ ^ 2 - (∑ j, if j.val < k then lam j else 0) ≤ errOn (fun _ _ => True) A C := by
  obtain ⟨b, hb⟩ := exists_basis h
  obtain ⟨U, W, hUW⟩ := hC
  set S : Submodule ℝ (EuclideanSpace ℝ (Fin c)) := Submodule.span ℝ (Set.range (rowV W)) with hS
  have hmem : ∀ i, rowV C i ∈ S := by
    intro i
    have : rowV C i = ∑ l, U i l • rowV W l := by
      ext y
      simp [rowV, hUW]
    rw [this]
    exact Submodule.sum_mem _ fun l _ => Submodule.smul_mem _ _ (Submodule.subset_span ⟨l, rfl⟩)
  have hdim : Module.finrank ℝ S ≤ k := by
    have := finrank_range_le_card (R := ℝ) (rowV W)
    simpa [Set.finrank] using this
  let w := stdOrthonormalBasis ℝ S
  have hw : Orthonormal ℝ (fun m => (w m : EuclideanSpace ℝ (Fin c))) := by
    have := w.orthonormal.comp_linearIsometry S.subtypeₗᵢ
    exact this
  -- one row
  have hone : ∀ i, ‖rowV A i‖ ^ 2 - ∑ m, inner ℝ (rowV A i) (w m : EuclideanSpace ℝ (Fin c)) ^ 2 ≤ ‖rowV A i - rowV C i‖ ^ 2 := by
    intro i
    set a := rowV A i
    set x : S := ⟨rowV C i, hmem i⟩
    have e1 : ‖rowV C i‖ ^ 2 = ∑ m, inner ℝ (w m) x ^ 2 := by
      have := w.sum_sq_norm_inner_right x
      simp only [Real.norm_eq_abs, sq_abs] at this
      rw [this]
      rfl
    have e2 : inner ℝ a (rowV C i) = ∑ m, inner ℝ (w m) x * inner ℝ a (w m : EuclideanSpace ℝ (Fin c)) := by
      have hx : rowV C i = ∑ m, inner ℝ (w m) x • (w m : EuclideanSpace ℝ (Fin c)) := by
        have := congrArg (Subtype.val) (w.sum_repr' x)
        simpa using this.symm
      conv_lhs => rw [hx]
      rw [inner_sum]
      simp only [real_inner_smul_right]
    rw [norm_sub_sq_real, e1, e2]
    have : 0 ≤ ∑ m, (inner ℝ (w m) x - inner ℝ a (w m : EuclideanSpace ℝ (Fin c))) ^ 2 := Finset.sum_nonneg fun m _ => sq_nonneg _
    have e3 : ∑ m, (inner ℝ (w m) x - inner ℝ a (w m : EuclideanSpace ℝ (Fin c))) ^ 2 = ∑ m, inner ℝ (w m) x ^ 2 -
        2 * ∑ m, inner ℝ (w m) x * inner ℝ a (w m : EuclideanSpace ℝ (Fin c)) + ∑ m, inner ℝ a (w m : EuclideanSpace ℝ (Fin c)) ^ 2 := by
      rw [Finset.mul_sum, ← Finset.sum_sub_distrib, ← Finset.sum_add_distrib]
      exact Finset.sum_congr rfl fun m _ => by ring
    linarith
  have hsum : ∑ i, ∑ m, inner ℝ (rowV A i) (w m : EuclideanSpace ℝ (Fin c)) ^ 2 ≤ ∑ j, if j.val < k then lam j else 0 := by
    rw [Finset.sum_comm]
    simp only [sum_inner_sq h hb]
    rw [Finset.sum_comm]
    simp only [← Finset.mul_sum]
    refine weighted_le lam _ h.sorted (lam_nonneg h) (fun j => Finset.sum_nonneg fun m _ => sq_nonneg _) (fun j => ?_) k ?_
    · have := hw.sum_inner_products_le (b j) (s := Finset.univ)
      rw [b.norm_eq_one] at this
      simpa [real_inner_comm] using this
    · rw [Finset.sum_comm]
      have : ∀ m, ∑ j, inner ℝ (b j) (w m : EuclideanSpace ℝ (Fin c)) ^ 2 = 1 := by
        intro m
        have := b.sum_sq_norm_inner_right (w m : EuclideanSpace ℝ (Fin c))
        simp only [Real.norm_eq_abs, sq_abs] at this
        rw [this, hw.1 m]; norm_num
      simp only [this]
      simpa using hdim
  rw [errOn_rows]
  calc _ ≤ ∑ i, ‖rowV A i‖ ^ 2 - ∑ i, ∑ m, inner ℝ (rowV A i) (w m : EuclideanSpace ℝ (Fin c)) ^ 2 := by linarith
    _ = ∑ i, (‖rowV A i‖ ^ 2 - ∑ m, inner ℝ (rowV A i) (w m : EuclideanSpace ℝ (Fin c)) ^ 2) := by rw [Finset.sum_sub_distrib]
    _ ≤ _ := Finset.sum_le_sum fun i _ => hone i

theorem truncated_rank (k : Nat) (V : Fin c → Fin c → ℝ) (u : Fin r → Fin c → ℝ) {B : Fin r → Fin c → ℝ}
    (hB : ∀ i y, B i y = ∑ j, if j.val < k then u i j * V j y else 0) : RankLE k B := by
  refine ⟨fun i l => if h : l.val < c then u i ⟨l, h⟩ else 0, fun l y => if h : l.val < c then V ⟨l, h⟩ y else 0, fun i y => ?_⟩
  have e : ∀ (m d : Nat) (f : Nat → ℝ), ∑ j : Fin d, (if j.val < m then f j else 0) = ∑ l : Fin m, if l.val < d then f l else 0 := by
    intro m d f
    rw [Fin.sum_univ_eq_sum_range (fun j => if j < m then f j else 0), Fin.sum_univ_eq_sum_range (fun l => if l < d then f l else 0),
      ← Finset.sum_filter, ← Finset.sum_filter]
    refine Finset.sum_congr ?_ fun _ _ => rfl
    ext x
    simp only [Finset.mem_filter, Finset.mem_range]
    tauto
  have := e k c (fun j => if h : j < c then u i ⟨j, h⟩ * V ⟨j, h⟩ y else 0)
  rw [hB]
  calc _ = ∑ j : Fin c, (if j.val < k then (if h : j.val < c then u i ⟨j, h⟩ * V ⟨j, h⟩ y else 0) else 0) := by
        refine Finset.sum_congr rfl fun j _ => ?_
        simp [j.isLt]
    _ = _ := this
    _ = _ := by
        refine Finset.sum_congr rfl fun l _ => ?_
        by_cases h : l.val < c <;> simp [h]

/-- **Eckart and Young**. -/
theorem truncated_best {k : Nat} {B : Fin r → Fin c → ℝ} (h : IsTruncated k A B) : BestRank k A B := by
  obtain ⟨V, lam, hV, hB⟩ := h
  refine ⟨truncated_rank k V _ hB, fun C hC => ?_⟩
  rw [err_truncated hV k hB]
  exact err_lower hV k hC

/-- Every matrix has a singular value decomposition. -/
theorem exists_rightSingular (A : Fin r → Fin c → ℝ) : ∃ V lam, RightSingular A V lam := by
  let M : Matrix (Fin r) (Fin c) ℝ := Matrix.of A
  have hM : (M.transpose * M).IsHermitian := by
    have := Matrix.isHermitian_conjTranspose_mul_self M
    simpa using this
  let s := Tuple.sort (fun j => - hM.eigenvalues j)
  refine ⟨fun j => WithLp.ofLp (hM.eigenvectorBasis (s j)), fun j => hM.eigenvalues (s j), ⟨fun j l => ?_, fun j y => ?_, fun j l hjl => ?_⟩⟩
  · have := (orthonormal_iff_ite.1 hM.eigenvectorBasis.orthonormal) (s j) (s l)
    rw [← inner_toLp]
    simpa using this
  · have := congrFun (hM.mulVec_eigenvectorBasis (s j)) y
    simp only [Pi.smul_apply, smul_eq_mul] at this
    rw [← this, ← Matrix.mulVec_mulVec]
    generalize WithLp.ofLp (hM.eigenvectorBasis (s j)) = v
    simp only [Matrix.mulVec, dotProduct, Matrix.transpose_apply, M, Matrix.of_apply]
    exact Finset.sum_congr rfl fun i _ => mul_comm _ _
  · have := Tuple.monotone_sort (fun j => - hM.eigenvalues j) hjl
    simpa using this

end Alipy.Proof

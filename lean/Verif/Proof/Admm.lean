import Mathlib.Analysis.SpecialFunctions.Pow.Real
import Mathlib.Topology.Algebra.InfiniteSum.Order
import Mathlib.Topology.Algebra.InfiniteSum.Real
/-!
# One step of the alternating direction method of multipliers
-/
namespace Alipy.Admm

variable {κ : Type} [Fintype κ]

/-- The distance to the optimum that decreases. -/
noncomputable def dist (rho : ℝ) (dS zS d z : κ → ℝ) : ℝ := ∑ j, ((d j - dS j) ^ 2 / rho + rho * (z j - zS j) ^ 2)

theorem dist_nonneg {rho : ℝ} (hr : 0 < rho) (dS zS d z : κ → ℝ) : 0 ≤ dist rho dS zS d z :=
  Finset.sum_nonneg fun j _ => by positivity

theorem step {rho : ℝ} (hr : 0 < rho) {w zS dS z0 d0 z1 d1 t1 G0 G1 : κ → ℝ} {fS f1 e : ℝ}
    (hA : fS = f1 + ∑ j, (d1 j - rho * (z1 j - z0 j)) * (zS j - t1 j) + e)
    (hB : f1 = fS + ∑ j, dS j * (t1 j - zS j) + e)
    (hC : ∀ j, G1 j - d1 j * (zS j - z1 j) + w j * (zS j - z1 j) ^ 2 ≤ G0 j)
    (hD : ∀ j, G0 j - dS j * (z1 j - zS j) + w j * (z1 j - zS j) ^ 2 ≤ G1 j)
    (hd : ∀ j, d1 j = d0 j + rho * (z1 j - t1 j)) :
    dist rho dS zS d1 z1 + rho * ∑ j, ((z1 j - t1 j) - (z1 j - z0 j)) ^ 2 + 4 * e + 4 * ∑ j, w j * (z1 j - zS j) ^ 2 ≤ dist rho dS zS d0 z0 := by
  have hAB : 0 = ∑ j, (d1 j - dS j - rho * (z1 j - z0 j)) * (zS j - t1 j) + 2 * e := by
    have : ∑ j, (d1 j - dS j - rho * (z1 j - z0 j)) * (zS j - t1 j) =
        ∑ j, (d1 j - rho * (z1 j - z0 j)) * (zS j - t1 j) + ∑ j, dS j * (t1 j - zS j) := by
      rw [← Finset.sum_add_distrib]
      exact Finset.sum_congr rfl fun j _ => by ring
    rw [this]
    linarith
  have hCD : ∑ j, (-(d1 j - dS j) * (zS j - z1 j) + 2 * (w j * (z1 j - zS j) ^ 2)) ≤ 0 := by
    apply Finset.sum_nonpos
    intro j _
    have h1 := hC j
    have h2 := hD j
    have h3 : (zS j - z1 j) ^ 2 = (z1 j - zS j) ^ 2 := by ring
    rw [h3] at h1
    linarith
  have key : dist rho dS zS d1 z1 + rho * ∑ j, ((z1 j - t1 j) - (z1 j - z0 j)) ^ 2 + 4 * ∑ j, w j * (z1 j - zS j) ^ 2 - dist rho dS zS d0 z0 =
      2 * ∑ j, (d1 j - dS j - rho * (z1 j - z0 j)) * (zS j - t1 j) + 2 * ∑ j, (-(d1 j - dS j) * (zS j - z1 j) + 2 * (w j * (z1 j - zS j) ^ 2)) := by
    unfold dist
    rw [Finset.mul_sum, Finset.mul_sum, Finset.mul_sum, Finset.mul_sum, ← Finset.sum_add_distrib, ← Finset.sum_add_distrib, ← Finset.sum_sub_distrib, ← Finset.sum_add_distrib]
    refine Finset.sum_congr rfl fun j _ => ?_
    rw [hd j]
    field_simp
    ring
  linarith

/-- Residual and change of `z` point in different directions. -/
theorem cross_nonpos {rho : ℝ} (hr : 0 < rho) {w z0 d0 z1 d1 t1 G0 G1 : κ → ℝ} (hw : ∀ j, 0 ≤ w j)
    (h0 : ∀ j, G0 j - d0 j * (z1 j - z0 j) + w j * (z1 j - z0 j) ^ 2 ≤ G1 j)
    (h1 : ∀ j, G1 j - d1 j * (z0 j - z1 j) + w j * (z0 j - z1 j) ^ 2 ≤ G0 j)
    (hd : ∀ j, d1 j = d0 j + rho * (z1 j - t1 j)) (j : κ) : (z1 j - t1 j) * (z1 j - z0 j) ≤ 0 := by
  have a := h0 j
  have b := h1 j
  have c := mul_nonneg (hw j) (sq_nonneg (z1 j - z0 j))
  have e : (z0 j - z1 j) ^ 2 = (z1 j - z0 j) ^ 2 := by ring
  rw [e] at b
  have f : rho * ((z1 j - t1 j) * (z1 j - z0 j)) ≤ 0 := by
    have := hd j
    have g : d1 j - d0 j = rho * (z1 j - t1 j) := by linarith
    have : rho * ((z1 j - t1 j) * (z1 j - z0 j)) = (d1 j - d0 j) * (z1 j - z0 j) := by rw [g]; ring
    rw [this]
    nlinarith
  by_contra hc
  push Not at hc
  have := mul_pos hr hc
  linarith

/-- A non-negative sequence whose sums are bounded tends to zero. -/
theorem tendsto_of_telescope {V a : ℕ → ℝ} (hV : ∀ k, 0 ≤ V k) (ha : ∀ k, 0 ≤ a k) (h : ∀ k, V (k + 1) + a k ≤ V k) :
    (∀ n, ∑ k ∈ Finset.range n, a k ≤ V 0) ∧ Filter.Tendsto a Filter.atTop (nhds 0) := by
  have h1 : ∀ n, V n + ∑ k ∈ Finset.range n, a k ≤ V 0 := by
    intro n
    induction n with
    | zero => simp
    | succ n ih => rw [Finset.sum_range_succ]; linarith [h n]
  have h2 : ∀ n, ∑ k ∈ Finset.range n, a k ≤ V 0 := fun n => by linarith [h1 n, hV n]
  exact ⟨h2, (summable_of_sum_range_le ha h2).tendsto_atTop_zero⟩

end Alipy.Admm

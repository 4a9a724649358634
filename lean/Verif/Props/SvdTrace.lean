import Verif.Model.SvdTrace
import Verif.Spec.SvdTrace
import Verif.Props.Completion
import Verif.Proof.EckartYoung
import Mathlib.Algebra.Order.BigOperators.Group.Finset
import Mathlib.Tactic.FinCases

/-! # C110: iterative SVD approaches the observed entries -/
namespace Alipy.Features
open Spec

set_option linter.unusedSimpArgs false
set_option linter.unusedSectionVars false

variable {K : Type} [Field K] [LinearOrder K] [IsStrictOrderedRing K] {r c : Nat}

theorem RankLE.mono {k k' : Nat} (h : k ≤ k') {B : Fin r → Fin c → K} (hB : RankLE k B) : RankLE k' B := by
  obtain ⟨U, V, hUV⟩ := hB
  obtain ⟨d, rfl⟩ : ∃ d, k' = k + d := ⟨k' - k, by omega⟩
  refine ⟨fun i l => Fin.addCases (fun a => U i a) (fun _ => 0) l, fun l j => Fin.addCases (fun a => V a j) (fun _ => 0) l, fun i j => ?_⟩
  rw [Fin.sum_univ_add, hUV]
  simp

theorem rankAt_mono (o : Svd K) {i j : Nat} (h : i ≤ j) : o.rankAt i ≤ o.rankAt j := by
  unfold Svd.rankAt
  split
  · exact min_le_min_right _ (Nat.pow_le_pow_right (by omega) h)
  · exact le_refl _

theorem errOn_nonneg (P : Fin r → Fin c → Prop) [∀ i j, Decidable (P i j)] (A B : Fin r → Fin c → K) : 0 ≤ errOn P A B := by
  refine Finset.sum_nonneg fun i _ => Finset.sum_nonneg fun j _ => ?_
  split
  · exact sq_nonneg _
  · exact le_refl _

theorem errOn_split (P : Fin r → Fin c → Prop) [∀ i j, Decidable (P i j)] (A B : Fin r → Fin c → K) :
    errOn (fun _ _ => True) A B = errOn P A B + errOn (fun i j => ¬P i j) A B := by
  simp only [errOn, ← Finset.sum_add_distrib]
  refine Finset.sum_congr rfl fun i _ => Finset.sum_congr rfl fun j _ => ?_
  by_cases h : P i j <;> simp [h]

theorem errOn_congr (P : Fin r → Fin c → Prop) [∀ i j, Decidable (P i j)] {A B A' B' : Fin r → Fin c → K} (h : ∀ i j, P i j → A i j = A' i j ∧ B i j = B' i j) :
    errOn P A B = errOn P A' B' := by
  refine Finset.sum_congr rfl fun i _ => Finset.sum_congr rfl fun j _ => ?_
  by_cases hp : P i j
  · rw [if_pos hp, if_pos hp, (h i j hp).1, (h i j hp).2]
  · simp [hp]

/-- The iterations are those of `impute`: it returns the matrix filled in the first iteration that has converged, or in the last one allowed. -/
theorem imputeLoop_trace (o : Svd K) (svd : Nat → Mat r c K → Mat r c K) (X mask : Mat r c K) : ∀ (n i : Nat), ∃ j, i ≤ j ∧ j ≤ i + n ∧
    imputeLoop o svd X mask n i (filledAt o svd X mask i) = filledAt o svd X mask j ∧ (∀ q, i ≤ q → q + 1 < j → stopsAt o svd X mask q = false) ∧
    (j < i + n → i < j ∧ stopsAt o svd X mask (j - 1) = true)
  | 0, i => ⟨i, le_refl _, le_refl _, rfl, fun q h1 h2 => by omega, fun h => by omega⟩
  | n + 1, i => by
    obtain ⟨j, h1, h2, h3, h4, h5⟩ := imputeLoop_trace o svd X mask n (i + 1)
    by_cases hs : stopsAt o svd X mask i = true
    · refine ⟨i + 1, by omega, by omega, ?_, fun q _ hq => by omega, fun _ => ⟨by omega, by simpa using hs⟩⟩
      rw [imputeLoop]
      unfold stopsAt recAt lowAt at hs
      simp only [Svd.rankAt] at hs
      simp only [hs, if_true]
      rw [filledAt]
      simp only [Svd.rankAt]
    · refine ⟨j, by omega, by omega, ?_, fun q hq1 hq2 => ?_, fun h => ⟨by omega, (h5 (by omega)).2⟩⟩
      · rw [← h3, imputeLoop]
        unfold stopsAt recAt lowAt at hs
        simp only [Svd.rankAt] at hs
        simp only [hs, if_false]
        congr 1
      · rcases Nat.eq_or_lt_of_le hq1 with h | h
        · subst h; simpa using hs
        · exact h4 q h hq2

/-- C110: `impute` returns one of the matrices of the trace, the first one after an iteration that has converged if there is such an iteration among the allowed ones. -/
theorem C110_trace (o : Svd K) (svd : Nat → Mat r c K → Mat r c K) (maxIters : Nat) (X mask : Mat r c K) (R : Mat r c K) (h : impute o svd maxIters false X mask = .ok R) :
    ∃ j ≤ maxIters, R = filledAt o svd X mask j ∧ (∀ q, q + 1 < j → stopsAt o svd X mask q = false) ∧ (j < maxIters → 0 < j ∧ stopsAt o svd X mask (j - 1) = true) := by
  simp only [impute, Bool.false_and] at h
  obtain ⟨j, h1, h2, h3, h4, h5⟩ := imputeLoop_trace o svd X mask maxIters 0
  refine ⟨j, by omega, ?_, fun q hq => h4 q (by omega) hq, fun hj => h5 (by omega)⟩
  rw [← h3]
  simpa [filledAt, eq_comm] using h

variable {obs : Fin r → Fin c → Prop} [∀ i j, Decidable (obs i j)]

/-- The mask of the observed entries. -/
def maskFor (K : Type) [Field K] (obs : Fin r → Fin c → Prop) [∀ i j, Decidable (obs i j)] : Mat r c K := fun i j => if obs i j then 1 else 0

theorem filled_succ (o : Svd K) (svd : Nat → Mat r c K → Mat r c K) (X : Mat r c K) (q : Nat) (i : Fin r) (j : Fin c) :
    filledAt o svd X (maskFor K obs) (q + 1) i j = if obs i j then X i j else recAt o svd X (maskFor K obs) q i j := by
  rw [filledAt, recAt, lowAt]
  by_cases h : obs i j <;> simp [plus, had, compl, maskFor, h]

/-- Clipping is the projection onto the values within the limits: a clipped value is nearer to every other clipped value. -/
theorem clip_proj (lo hi : Option K) (z z' : K) : (clip lo hi z' - z') ^ 2 + (clip lo hi z - clip lo hi z') ^ 2 ≤ (clip lo hi z - z') ^ 2 := by
  have key : ∀ f g : K, (f - g) * (g - z') ≥ 0 → (g - z') ^ 2 + (f - g) ^ 2 ≤ (f - z') ^ 2 := fun f g h => by nlinarith
  apply key
  rcases lo with _ | a <;> rcases hi with _ | b <;> simp only [clip]
  · simp
  · split_ifs <;> nlinarith
  · split_ifs <;> nlinarith
  · split_ifs <;> nlinarith

/-- How far the low-rank matrix of iteration `q` is from what is wanted of it: the squared distance to the observed entries, and the squares of what its other entries exceed the limits by. -/
def misfit (o : Svd K) (obs : Fin r → Fin c → Prop) [∀ i j, Decidable (obs i j)] (svd : Nat → Mat r c K → Mat r c K) (X : Mat r c K) (q : Nat) : K :=
  errOn obs X (lowAt o svd X (maskFor K obs) q) + errOn (fun i j => ¬obs i j) (recAt o svd X (maskFor K obs) q) (lowAt o svd X (maskFor K obs) q)

theorem misfit_no_limits (o : Svd K) (hlo : o.lo = none) (hhi : o.hi = none) (svd : Nat → Mat r c K → Mat r c K) (X : Mat r c K) (q : Nat) :
    misfit o obs svd X q = errOn obs X (recAt o svd X (maskFor K obs) q) := by
  have e : recAt o svd X (maskFor K obs) q = lowAt o svd X (maskFor K obs) q := by
    funext a b; simp [recAt, clip, hlo, hhi]
  unfold misfit
  rw [e]
  simp [errOn]

theorem misfit_nonneg (o : Svd K) (svd : Nat → Mat r c K → Mat r c K) (X : Mat r c K) (q : Nat) : 0 ≤ misfit o obs svd X q :=
  add_nonneg (errOn_nonneg _ _ _) (errOn_nonneg _ _ _)

theorem descent_of_best (o : Svd K) (svd : Nat → Mat r c K → Mat r c K) (X : Mat r c K)
    (hsvd : ∀ q, BestRank (o.rankAt q) (filledAt o svd X (maskFor K obs) q) (svd (o.rankAt q) (filledAt o svd X (maskFor K obs) q))) (q : Nat) :
    misfit o obs svd X (q + 1) + errOn (fun i j => ¬obs i j) (recAt o svd X (maskFor K obs) q) (recAt o svd X (maskFor K obs) (q + 1)) ≤ misfit o obs svd X q := by
  have hr : RankLE (o.rankAt (q + 1)) (lowAt o svd X (maskFor K obs) q) := RankLE.mono (rankAt_mono o (by omega)) (hsvd _).1
  have h := (hsvd (q + 1)).2 _ hr
  rw [errOn_split obs, errOn_split obs] at h
  have e1 : ∀ B, errOn obs (filledAt o svd X (maskFor K obs) (q + 1)) B = errOn obs X B := fun B =>
    errOn_congr _ fun i j hp => ⟨by rw [filled_succ, if_pos hp], rfl⟩
  have e2 : ∀ B, errOn (fun i j => ¬obs i j) (filledAt o svd X (maskFor K obs) (q + 1)) B = errOn (fun i j => ¬obs i j) (recAt o svd X (maskFor K obs) q) B := fun B =>
    errOn_congr _ fun i j hp => ⟨by rw [filled_succ, if_neg hp], rfl⟩
  rw [e1, e1, e2, e2] at h
  change errOn obs X (lowAt o svd X (maskFor K obs) (q + 1)) + errOn (fun i j => ¬obs i j) (recAt o svd X (maskFor K obs) q) (lowAt o svd X (maskFor K obs) (q + 1)) ≤ misfit o obs svd X q at h
  have hp : errOn (fun i j => ¬obs i j) (recAt o svd X (maskFor K obs) (q + 1)) (lowAt o svd X (maskFor K obs) (q + 1)) +
      errOn (fun i j => ¬obs i j) (recAt o svd X (maskFor K obs) q) (recAt o svd X (maskFor K obs) (q + 1)) ≤
      errOn (fun i j => ¬obs i j) (recAt o svd X (maskFor K obs) q) (lowAt o svd X (maskFor K obs) (q + 1)) := by
    unfold errOn
    simp only [← Finset.sum_add_distrib]
    refine Finset.sum_le_sum fun i _ => Finset.sum_le_sum fun j _ => ?_
    split
    · exact clip_proj _ _ _ _
    · simp
  unfold misfit at h ⊢
  linarith

theorem changes_of_best (o : Svd K) (svd : Nat → Mat r c K → Mat r c K) (X : Mat r c K)
    (hsvd : ∀ q, BestRank (o.rankAt q) (filledAt o svd X (maskFor K obs) q) (svd (o.rankAt q) (filledAt o svd X (maskFor K obs) q))) (n : Nat) :
    (∑ q ∈ Finset.range n, errOn (fun i j => ¬obs i j) (recAt o svd X (maskFor K obs) q) (recAt o svd X (maskFor K obs) (q + 1))) + misfit o obs svd X n ≤ misfit o obs svd X 0 := by
  induction n with
  | zero => simp
  | succ n ih =>
    rw [Finset.sum_range_succ]
    have := descent_of_best (obs := obs) o svd X hsvd n
    linarith

theorem sqSum_eq (A : Mat r c K) : sqSum A = ∑ i, ∑ j, A i j * A i j := by
  unfold sqSum cells
  rw [List.map_flatMap]
  simp only [List.map_map, Function.comp_def, Fin.sum_univ_def]
  induction List.finRange r with
  | nil => rfl
  | cons a l ih => simp only [List.flatMap_cons, List.sum_append, ih, List.map_cons, List.sum_cons]

theorem ends_of_best (o : Svd K) (ht : 0 < o.threshold) (svd : Nat → Mat r c K → Mat r c K) (X : Mat r c K)
    (hsvd : ∀ q, BestRank (o.rankAt q) (filledAt o svd X (maskFor K obs) q) (svd (o.rankAt q) (filledAt o svd X (maskFor K obs) q))) (n : Nat)
    (size : K) (hsize : o.prec ≤ size) (h0 : 0 < size) (hn : ∀ q < n, size ≤ errOn (fun i j => ¬obs i j) (recAt o svd X (maskFor K obs) q) (fun _ _ => 0))
    (hgo : ∀ q < n, stopsAt o svd X (maskFor K obs) (q + 1) = false) : n * (o.threshold * size) ≤ misfit o obs svd X 0 := by
  have key : ∀ q < n, o.threshold * size ≤ errOn (fun i j => ¬obs i j) (recAt o svd X (maskFor K obs) q) (recAt o svd X (maskFor K obs) (q + 1)) := by
    intro q hq
    have hs := hgo q hq
    have e1 : sqSum (had (filledAt o svd X (maskFor K obs) (q + 1)) (compl (maskFor K obs))) = errOn (fun i j => ¬obs i j) (recAt o svd X (maskFor K obs) q) (fun _ _ => 0) := by
      rw [sqSum_eq]
      refine Finset.sum_congr rfl fun i _ => Finset.sum_congr rfl fun j _ => ?_
      simp only [had, filled_succ]
      by_cases hp : obs i j <;> simp [compl, maskFor, hp, pow_two]
    have e2 : sqSum (fun i j => had (filledAt o svd X (maskFor K obs) (q + 1)) (compl (maskFor K obs)) i j - had (recAt o svd X (maskFor K obs) (q + 1)) (compl (maskFor K obs)) i j) =
        errOn (fun i j => ¬obs i j) (recAt o svd X (maskFor K obs) q) (recAt o svd X (maskFor K obs) (q + 1)) := by
      rw [sqSum_eq]
      refine Finset.sum_congr rfl fun i _ => Finset.sum_congr rfl fun j _ => ?_
      simp only [had, filled_succ]
      by_cases hp : obs i j <;> simp [compl, maskFor, hp, pow_two]
    unfold stopsAt converged at hs
    simp only [e1, e2] at hs
    have hge := hn q hq
    have hpos : 0 < errOn (fun i j => ¬obs i j) (recAt o svd X (maskFor K obs) q) (fun _ _ => 0) := lt_of_lt_of_le h0 hge
    rw [if_neg] at hs
    · simp only [decide_eq_false_iff_not, not_lt] at hs
      rw [le_div_iff₀ hpos] at hs
      exact le_trans (mul_le_mul_of_nonneg_left hge ht.le) hs
    · rintro (h | h)
      · exact absurd h hpos.ne'
      · exact absurd h.1 (not_lt.2 (le_trans hsize hge))
  have h1 := changes_of_best (obs := obs) o svd X hsvd n
  have h2 := misfit_nonneg (obs := obs) o svd X n
  have h3 : (n : K) * (o.threshold * size) ≤ ∑ q ∈ Finset.range n, errOn (fun i j => ¬obs i j) (recAt o svd X (maskFor K obs) q) (recAt o svd X (maskFor K obs) (q + 1)) := by
    have := Finset.card_nsmul_le_sum (Finset.range n) (fun q => errOn (fun i j => ¬obs i j) (recAt o svd X (maskFor K obs) q) (recAt o svd X (maskFor K obs) (q + 1))) (o.threshold * size)
      (fun q hq => key q (Finset.mem_range.1 hq))
    rwa [Finset.card_range, nsmul_eq_mul] at this
  linarith

/-! ## With the singular value decomposition -/

section real
variable {obs : Fin r → Fin c → Prop} [∀ i j, Decidable (obs i j)]

/-- `TruncatedSVD(k).fit_transform` and `inverse_transform` compute a truncated singular value decomposition (exactly). -/
def ExactSvd (svd : Nat → Mat r c ℝ → Mat r c ℝ) : Prop := ∀ k A, IsTruncated k A (svd k A)

/-- C110: a truncated singular value decomposition is a best approximation of its rank (Eckart and Young) -/
theorem C110_best_rank {k : Nat} {A B : Fin r → Fin c → ℝ} (h : IsTruncated k A B) : BestRank k A B := Proof.truncated_best h

/-- C110: and exists for every matrix and rank, so that the assumption of the theorems below can be met. -/
theorem C110_svd_exists : ∃ svd : Nat → Mat r c ℝ → Mat r c ℝ, ExactSvd svd := by
  have h : ∀ (k : Nat) (A : Mat r c ℝ), ∃ B, IsTruncated k A B := fun k A => by
    obtain ⟨V, lam, hV⟩ := Proof.exists_rightSingular A
    exact ⟨fun i y => ∑ j, if j.val < k then (∑ x, A i x * V j x) * V j y else 0, V, lam, hV, fun _ _ => rfl⟩
  choose svd h using h
  exact ⟨svd, h⟩

/-- C110: every iteration brings the low-rank matrix closer to the observed entries and to the limits for the values: the misfit falls by at least the squared change of the missing entries. -/
theorem C110_descent (o : Svd ℝ) {svd : Nat → Mat r c ℝ → Mat r c ℝ} (hsvd : ExactSvd svd) (X : Mat r c ℝ) (q : Nat) :
    misfit o obs svd X (q + 1) + errOn (fun i j => ¬obs i j) (recAt o svd X (maskFor ℝ obs) q) (recAt o svd X (maskFor ℝ obs) (q + 1)) ≤ misfit o obs svd X q :=
  descent_of_best o svd X (fun _ => Proof.truncated_best (hsvd _ _)) q

/-- C110: without limits (the default) the misfit is the squared error on the observed entries, so that this falls from iteration to iteration. -/
theorem C110_error (o : Svd ℝ) (hlo : o.lo = none) (hhi : o.hi = none) {svd : Nat → Mat r c ℝ → Mat r c ℝ} (hsvd : ExactSvd svd) (X : Mat r c ℝ) {p q : Nat} (hpq : p ≤ q) :
    errOn obs X (recAt o svd X (maskFor ℝ obs) q) ≤ errOn obs X (recAt o svd X (maskFor ℝ obs) p) := by
  induction hpq with
  | refl => exact le_refl _
  | @step q _ ih =>
    refine le_trans ?_ ih
    have := C110_descent (obs := obs) o hsvd X q
    rw [misfit_no_limits o hlo hhi, misfit_no_limits o hlo hhi] at this
    have h2 := errOn_nonneg (fun i j => ¬obs i j) (recAt o svd X (maskFor ℝ obs) q) (recAt o svd X (maskFor ℝ obs) (q + 1))
    linarith

/-- C110: the squared changes of the missing entries, over all iterations but the first, add up to the misfit of the first iteration at most. -/
theorem C110_changes (o : Svd ℝ) {svd : Nat → Mat r c ℝ → Mat r c ℝ} (hsvd : ExactSvd svd) (X : Mat r c ℝ) (n : Nat) :
    (∑ q ∈ Finset.range n, errOn (fun i j => ¬obs i j) (recAt o svd X (maskFor ℝ obs) q) (recAt o svd X (maskFor ℝ obs) (q + 1))) + misfit o obs svd X n ≤ misfit o obs svd X 0 :=
  changes_of_best o svd X (fun _ => Proof.truncated_best (hsvd _ _)) n

/-- C110: the iteration ends by itself. As long as the missing values are of size `size` (at least the precision of 32-bit numbers), iterations that do not converge number at most the misfit of the first iteration,
divided by the threshold and the size, and one. -/
theorem C110_ends (o : Svd ℝ) (ht : 0 < o.threshold) {svd : Nat → Mat r c ℝ → Mat r c ℝ} (hsvd : ExactSvd svd) (X : Mat r c ℝ) (n : Nat) (size : ℝ) (hsize : o.prec ≤ size) (h0 : 0 < size)
    (hn : ∀ q < n, size ≤ errOn (fun i j => ¬obs i j) (recAt o svd X (maskFor ℝ obs) q) (fun _ _ => 0)) (hgo : ∀ q < n, stopsAt o svd X (maskFor ℝ obs) (q + 1) = false) :
    n * (o.threshold * size) ≤ misfit o obs svd X 0 :=
  ends_of_best o ht svd X (fun _ => Proof.truncated_best (hsvd _ _)) n size hsize h0 hn hgo

/-- The bound is met for some decomposition, whatever the matrix. -/
example (o : Svd ℝ) (X : Mat r c ℝ) : ∃ svd, ExactSvd svd ∧ ∀ q, misfit o obs svd X (q + 1) ≤ misfit o obs svd X q := by
  obtain ⟨svd, h⟩ := C110_svd_exists (r := r) (c := c)
  exact ⟨svd, h, fun q => le_trans (le_add_of_nonneg_right (errOn_nonneg _ _ _)) (C110_descent (obs := obs) o h X q)⟩

end real

/-! A case: all entries but the last of the diagonal matrix with entries 2 and 1 are observed, and the rank is 1. The first iteration finds the (hidden) last entry, the second the matrix whose only entry is 2. -/

def exSvd : Nat → Mat 2 2 ℚ → Mat 2 2 ℚ := fun _ A i j => if A 0 0 = 2 then (if i = 0 ∧ j = 0 then 2 else 0) else A i j
def exX : Mat 2 2 ℚ := fun i j => if i = j then (if i = 0 then 2 else 1) else 0
def exObs (i j : Fin 2) : Prop := ¬(i = 1 ∧ j = 1)
instance : ∀ i j, Decidable (exObs i j) := fun i j => inferInstanceAs (Decidable (¬(i = 1 ∧ j = 1)))
def exO : Svd ℚ := { rank := 1, gradual := true, lo := none, hi := none, threshold := 1 / 100000, prec := 1 / 1000000 }

theorem exFilled (q : Nat) : filledAt exO exSvd exX (maskFor ℚ exObs) (q + 2) = fun i j => if i = 0 ∧ j = 0 then 2 else 0 := by
  induction q with
  | zero => decide +kernel
  | succ q ih =>
    rw [filledAt, ih]
    clear ih
    have : exO.rankAt (q + 2) = 1 := by
      have := Nat.two_pow_pos (q + 2)
      simp [Svd.rankAt, exO]; omega
    rw [this]
    decide +kernel

theorem exBest : ∀ q, BestRank (exO.rankAt q) (filledAt exO exSvd exX (maskFor ℚ exObs) q) (exSvd (exO.rankAt q) (filledAt exO exSvd exX (maskFor ℚ exObs) q)) := by
  have hk : ∀ q, exO.rankAt q = 1 := fun q => by
    have : 0 < 2 ^ q := Nat.two_pow_pos q
    simp [Svd.rankAt, exO]; omega
  have hsame : ∀ A B : Mat 2 2 ℚ, A = B → RankLE 1 A → BestRank 1 A B := by
    rintro A _ rfl h
    refine ⟨h, fun C _ => le_trans (le_of_eq ?_) (errOn_nonneg _ _ _)⟩
    simp [errOn]
  intro q
  rw [hk]
  match q with
  | 0 =>
    refine hsame _ _ (by decide +kernel) ⟨fun i _ => if i = 1 then 1 else 0, fun _ j => if j = 1 then 1 else 0, by decide +kernel⟩
  | 1 =>
    refine ⟨⟨fun i _ => if i = 0 then 2 else 0, fun _ j => if j = 0 then 1 else 0, by decide +kernel⟩, fun C hC => ?_⟩
    have e1 : errOn (fun _ _ => True) (filledAt exO exSvd exX (maskFor ℚ exObs) 1) (exSvd 1 (filledAt exO exSvd exX (maskFor ℚ exObs) 1)) = 1 := by decide +kernel
    have e2 : filledAt exO exSvd exX (maskFor ℚ exObs) 1 = exX := by decide +kernel
    rw [e1, e2]
    obtain ⟨U, V, h⟩ := hC
    have hd : C 0 0 * C 1 1 = C 0 1 * C 1 0 := by
      simp only [h, Fin.sum_univ_one, Fin.sum_univ_zero, Finset.univ_unique, Finset.sum_singleton]; ring
    simp only [errOn, Fin.sum_univ_two, if_true, exX]
    norm_num
    generalize C 0 0 = a at *
    generalize C 1 1 = d at *
    generalize C 0 1 = b at *
    generalize C 1 0 = e at *
    by_cases hd0 : 0 ≤ d
    · nlinarith [sq_nonneg (b - e), sq_nonneg (a + d - 2)]
    · nlinarith [sq_nonneg (b - e), sq_nonneg (b + e), sq_nonneg (a - d - 2), sq_nonneg (a - 2)]
  | q + 2 =>
    rw [exFilled]
    exact hsame _ _ (by decide +kernel) ⟨fun i _ => if i = 0 then 2 else 0, fun _ j => if j = 0 then 1 else 0, by decide +kernel⟩

example : errOn exObs exX (recAt exO exSvd exX (maskFor ℚ exObs) 0) = 4 := by decide +kernel
example : errOn exObs exX (recAt exO exSvd exX (maskFor ℚ exObs) 1) = 0 := by decide +kernel
example := descent_of_best (obs := exObs) exO exSvd exX exBest 0
example := changes_of_best (obs := exObs) exO exSvd exX exBest 5
example : ((1 : Nat) : ℚ) * (exO.threshold * 1) ≤ misfit exO exObs exSvd exX 0 :=
  ends_of_best (obs := exObs) exO (by decide +kernel) exSvd exX exBest 1 1 (by decide +kernel) (by decide +kernel) (by decide +kernel) (by decide +kernel)

end Alipy.Features

import Verif.Model.TTest
import Verif.Spec.TTest
/-!
# The paired t-test (C103)
-/
set_option linter.unusedSimpArgs false
namespace Alipy.TTest
open Alipy

variable {sf : Nat → ℝ → ℝ}

/-- The two columns of a list of pairs. -/
theorem zip_map (pairs : List (ℝ × ℝ)) : List.zipWith (fun x y => x - y) (pairs.map Prod.fst) (pairs.map Prod.snd) = pairs.map (fun p => p.1 - p.2) := by
  induction pairs with
  | nil => rfl
  | cons p l ih => simp [ih]

theorem ttest_pairs (pairs : List (ℝ × ℝ)) (alpha : ℝ) :
    pairedTtest sf (.vec (pairs.map Prod.fst)) (.vec (pairs.map Prod.snd)) alpha =
      .ok (verdict alpha (pvalue sf (pairs.map (fun p => p.1 - p.2)))) := by
  unfold pairedTtest run
  simp only [Arr.len, List.length_map, ne_eq, not_true_eq_false, if_false, zip_map]

/-- The p-value is that of the differences: what leaves it alone leaves the verdict alone. -/
theorem ttest_congr {pairs pairs' : List (ℝ × ℝ)} (h : pvalue sf (pairs.map (fun p => p.1 - p.2)) = pvalue sf (pairs'.map (fun p => p.1 - p.2)))
    (alpha : ℝ) : pairedTtest sf (.vec (pairs.map Prod.fst)) (.vec (pairs.map Prod.snd)) alpha =
      pairedTtest sf (.vec (pairs'.map Prod.fst)) (.vec (pairs'.map Prod.snd)) alpha := by
  rw [ttest_pairs, ttest_pairs, h]

/-! ## Which changes leave the p-value alone -/

theorem mean_scale (c : ℝ) (d : List ℝ) : mean (d.map (fun x => c * x)) = c * mean d := by
  unfold mean
  rw [List.sum_map_mul_left, List.map_id', List.length_map, mul_div_assoc]

theorem var_scale (c : ℝ) (d : List ℝ) : var (d.map (fun x => c * x)) = c ^ 2 * var d := by
  unfold var
  rw [mean_scale, List.map_map, List.length_map]
  have : ((fun x => (x - c * mean d) ^ 2) ∘ fun x => c * x) = fun x => c ^ 2 * (x - mean d) ^ 2 := by
    funext x
    simp only [Function.comp_apply]
    ring
  rw [this, List.sum_map_mul_left, mul_div_assoc]

theorem pvalue_scale {c : ℝ} (hc : c ≠ 0) (d : List ℝ) : pvalue sf (d.map (fun x => c * x)) = pvalue sf d := by
  unfold pvalue stat
  rw [mean_scale, var_scale, List.length_map]
  have hc2 : c ^ 2 ≠ 0 := pow_ne_zero 2 hc
  by_cases h1 : d.length ≤ 1
  · simp only [if_pos h1]
  · simp only [if_neg h1, mul_eq_zero, hc2, hc, false_or]
    by_cases h2 : var d = 0
    · simp only [if_pos h2]
    · simp only [if_neg h2]
      congr 3
      rw [show c ^ 2 * var d / (d.length : ℝ) = c ^ 2 * (var d / d.length) by ring, Real.sqrt_mul (sq_nonneg c), Real.sqrt_sq_eq_abs, abs_div, abs_div, abs_mul, abs_mul, abs_abs,
        mul_div_mul_left _ _ (abs_pos.2 hc).ne']

theorem pvalue_perm {d d' : List ℝ} (h : d.Perm d') : pvalue sf d = pvalue sf d' := by
  have hm : mean d = mean d' := by unfold mean; rw [h.sum_eq, h.length_eq]
  have hv : var d = var d' := by unfold var; rw [hm, (h.map _).sum_eq, h.length_eq]
  unfold pvalue stat
  rw [hm, hv, h.length_eq]

/-- **C103**: exchanging the two methods makes no difference. -/
theorem C103_symmetric (a b : List ℝ) (alpha : ℝ) : pairedTtest sf (.vec a) (.vec b) alpha = pairedTtest sf (.vec b) (.vec a) alpha := by
  unfold pairedTtest run
  simp only [Arr.len]
  by_cases h : a.length = b.length
  · simp only [h, ne_eq, not_true_eq_false, if_false]
    have e : List.zipWith (fun x y => x - y) b a = (List.zipWith (fun x y => x - y) a b).map (fun x => -1 * x) := by
      rw [List.map_zipWith, List.zipWith_comm]
      congr 1
      funext x y
      ring
    rw [e, pvalue_scale (by norm_num)]
  · simp only [ne_eq, h, Ne.symm h, not_false_eq_true, if_true]

/-- **C103**: the order in which the matched pairs are listed makes no difference. -/
theorem C103_order {pairs pairs' : List (ℝ × ℝ)} (h : pairs.Perm pairs') (alpha : ℝ) :
    pairedTtest sf (.vec (pairs.map Prod.fst)) (.vec (pairs.map Prod.snd)) alpha =
      pairedTtest sf (.vec (pairs'.map Prod.fst)) (.vec (pairs'.map Prod.snd)) alpha :=
  ttest_congr (pvalue_perm (h.map _)) alpha

/-- **C103**: neither the unit nor the origin of the scale matters, and the origin may be another one for every pair (percentages for fractions, errors for
accuracies, the difficulty of a fold). -/
theorem C103_scale {c : ℝ} (hc : c ≠ 0) (triples : List (ℝ × ℝ × ℝ)) (alpha : ℝ) :
    pairedTtest sf (.vec (triples.map (fun t => c * t.1 + t.2.2))) (.vec (triples.map (fun t => c * t.2.1 + t.2.2))) alpha =
      pairedTtest sf (.vec (triples.map (fun t => t.1))) (.vec (triples.map (fun t => t.2.1))) alpha := by
  have h := ttest_congr (sf := sf) (pairs := triples.map (fun t => (c * t.1 + t.2.2, c * t.2.1 + t.2.2))) (pairs' := triples.map (fun t => (t.1, t.2.1)))
    (by
      rw [List.map_map, List.map_map]
      have e : triples.map ((fun p : ℝ × ℝ => p.1 - p.2) ∘ fun t => (c * t.1 + t.2.2, c * t.2.1 + t.2.2)) =
          (triples.map ((fun p : ℝ × ℝ => p.1 - p.2) ∘ fun t => (t.1, t.2.1))).map (fun x => c * x) := by
        rw [List.map_map]
        apply List.map_congr_left
        intro t _
        simp only [Function.comp_apply]
        ring
      rw [e, pvalue_scale hc]) alpha
  simpa only [List.map_map, Function.comp_def] using h

/-- **C103**: a method does not differ from itself. -/
theorem C103_same (a : List ℝ) (alpha : ℝ) : pairedTtest sf (.vec a) (.vec a) alpha = .ok 0 := by
  have h := ttest_pairs (sf := sf) (a.map (fun x => (x, x))) alpha
  simp only [List.map_map, Function.comp_def, sub_self, List.map_id'] at h
  rw [h]
  have hm : mean (a.map (fun _ => (0 : ℝ))) = 0 := by unfold mean; simp
  have hv : var (a.map (fun _ => (0 : ℝ))) = 0 := by unfold var; rw [hm]; simp
  unfold pvalue stat
  rw [hm, hv]
  by_cases h1 : (a.map (fun _ => (0 : ℝ))).length ≤ 1
  · simp only [if_pos h1, verdict]
  · simp only [if_neg h1, if_true, verdict]

/-- **C103**: nothing is concluded from one pair. -/
theorem C103_one_pair (x y : ℝ) (alpha : ℝ) : pairedTtest sf (.vec [x]) (.vec [y]) alpha = .ok 0 := by
  unfold pairedTtest run pvalue stat
  simp [Arr.len, verdict]

/-- A constant difference. -/
theorem constant_pvalue {n : Nat} (hn : 2 ≤ n) {k : ℝ} (hk : k ≠ 0) : pvalue sf (List.replicate n k) = some 0 := by
  have hn' : (n : ℝ) ≠ 0 := by exact_mod_cast (by omega : n ≠ 0)
  have hm : mean (List.replicate n k) = k := by
    unfold mean
    rw [List.sum_replicate, List.length_replicate, nsmul_eq_mul, mul_div_cancel_left₀ _ hn']
  have hv : var (List.replicate n k) = 0 := by
    unfold var
    rw [hm]
    simp
  unfold pvalue stat
  rw [hm, hv, List.length_replicate]
  simp only [if_neg (by omega : ¬ n ≤ 1), if_true, if_neg hk]

/-- **C103**: a difference that is the same for two or more pairs is significant at every level. -/
theorem C103_constant {a : List ℝ} (h2 : 2 ≤ a.length) {k : ℝ} (hk : k ≠ 0) {alpha : ℝ} (ha : 0 ≤ alpha) :
    pairedTtest sf (.vec a) (.vec (a.map (fun x => x + k))) alpha = .ok 1 := by
  have h := ttest_pairs (sf := sf) (a.map (fun x => (x, x + k))) alpha
  simp only [List.map_map, Function.comp_def, sub_add_cancel_left, List.map_id'] at h
  rw [h, List.map_const', constant_pvalue h2 (neg_ne_zero.2 hk)]
  simp [ha, verdict]

/-! ## When differences are significant -/

theorem fin_sum_map (pairs : List (ℝ × ℝ)) (g : ℝ × ℝ → ℝ) : ∑ i : Fin pairs.length, g pairs[i] = (pairs.map g).sum := by
  simp

theorem meanVariance_iff {pairs : List (ℝ × ℝ)} (h2 : 2 ≤ pairs.length) {m v : ℝ} (h : Spec.MeanVariance pairs m v) :
    mean (pairs.map (fun p => p.1 - p.2)) = m ∧ var (pairs.map (fun p => p.1 - p.2)) = v := by
  have hn : (2 : ℝ) ≤ pairs.length := by exact_mod_cast h2
  obtain ⟨h1, h3⟩ := h
  have e1 := fin_sum_map pairs (fun p => p.1 - p.2)
  have e2 := fin_sum_map pairs (fun p => ((p.1 - p.2) - m) ^ 2)
  have hm : mean (pairs.map (fun p => p.1 - p.2)) = m := by
    unfold mean
    rw [List.length_map, ← e1, div_eq_iff (by linarith)]
    exact h1.symm
  refine ⟨hm, ?_⟩
  unfold var
  rw [hm, List.length_map, List.map_map, div_eq_iff (by linarith)]
  have : ((fun x => (x - m) ^ 2) ∘ fun p : ℝ × ℝ => p.1 - p.2) = fun p => ((p.1 - p.2) - m) ^ 2 := rfl
  rw [this, ← e2]
  exact h3.symm

/-- **C103**: of two or more pairs whose differences have mean `m` and sample variance `v > 0` the difference is significant iff the two-tailed p-value of
`m / √(v / n)` with `n - 1` degrees of freedom is at most `alpha`. -/
theorem C103_decision {pairs : List (ℝ × ℝ)} (h2 : 2 ≤ pairs.length) {m v : ℝ} (h : Spec.MeanVariance pairs m v) (hv : 0 < v) (alpha : ℝ) :
    ∃ H, pairedTtest sf (.vec (pairs.map Prod.fst)) (.vec (pairs.map Prod.snd)) alpha = .ok H ∧ (H = 0 ∨ H = 1) ∧
      (H = 1 ↔ 2 * sf (pairs.length - 1) (|m| / √(v / pairs.length)) ≤ alpha) := by
  obtain ⟨hm, hvar⟩ := meanVariance_iff h2 h
  rw [ttest_pairs]
  unfold pvalue stat
  rw [hm, hvar, List.length_map]
  simp only [if_neg (by omega : ¬ pairs.length ≤ 1), if_neg hv.ne', abs_div, abs_of_nonneg (Real.sqrt_nonneg _)]
  refine ⟨_, rfl, ?_, ?_⟩
  · simp only [verdict]
    split_ifs
    · exact Or.inr rfl
    · exact Or.inl rfl
  · simp only [verdict]
    split_ifs with hp
    · exact ⟨fun _ => hp, fun _ => rfl⟩
    · exact ⟨fun h => absurd h (by norm_num), fun h => absurd h hp⟩

/-- **C103**: among results of equally many pairs, a mean that is larger in relation to the standard deviation is significant if a smaller one is, also at a
higher level. -/
theorem C103_monotone (hs : Spec.IsStudent sf) {pairs pairs' : List (ℝ × ℝ)} (h2 : 2 ≤ pairs.length) (hl : pairs'.length = pairs.length) {m v m' v' : ℝ}
    (h : Spec.MeanVariance pairs m v) (h' : Spec.MeanVariance pairs' m' v') (hv : 0 < v) (hv' : 0 < v') (hle : m ^ 2 / v ≤ m' ^ 2 / v')
    {alpha alpha' : ℝ} (ha : alpha ≤ alpha') (h1 : pairedTtest sf (.vec (pairs.map Prod.fst)) (.vec (pairs.map Prod.snd)) alpha = .ok 1) :
    pairedTtest sf (.vec (pairs'.map Prod.fst)) (.vec (pairs'.map Prod.snd)) alpha' = .ok 1 := by
  obtain ⟨H, e, _, hH⟩ := C103_decision (sf := sf) h2 h hv alpha
  obtain ⟨H', e', _, hH'⟩ := C103_decision (sf := sf) (hl ▸ h2) h' hv' alpha'
  rw [e] at h1
  cases h1
  rw [e', hH'.2 ?_]
  have hp := hH.1 rfl
  have hn : (0 : ℝ) < pairs.length := by exact_mod_cast (by omega : 0 < pairs.length)
  rw [hl]
  have key : ∀ m v : ℝ, 0 < v → |m| / √(v / pairs.length) = √(m ^ 2 / v * pairs.length) := by
    intro m v hv
    rw [← Real.sqrt_sq_eq_abs, ← Real.sqrt_div (sq_nonneg m)]
    congr 1
    field_simp
  have hst : |m| / √(v / pairs.length) ≤ |m'| / √(v' / pairs.length) := by
    rw [key m v hv, key m' v' hv']
    exact Real.sqrt_le_sqrt (mul_le_mul_of_nonneg_right hle hn.le)
  have := hs.decreasing (pairs.length - 1) _ _ (by omega) hst
  linarith

/-! ## Violations -/

/-- **C103**, violation of the documentation: the example of the docstring (interface.py:294-299) is said to give 1, a significant difference, but gives 0. -/
theorem C103_docs_violation (hs : Spec.IsStudentTwo sf) : pairedTtest sf (.vec [1.2, 2, 3]) (.vec [1.6, 2.5, 1.1]) 0.05 = .ok 0 := by
  have hmv : Spec.MeanVariance [(1.2, 1.6), (2, 2.5), (3, 1.1)] (1 / 3) (553 / 300) := by
    unfold Spec.MeanVariance
    constructor
    · simp [Fin.sum_univ_succ]; norm_num
    · simp [Fin.sum_univ_succ]; norm_num
  obtain ⟨H, e, h01, hH⟩ := C103_decision (sf := sf) (pairs := [(1.2, 1.6), (2, 2.5), (3, 1.1)]) (by simp) hmv (by norm_num) 0.05
  simp only [List.map_cons, List.map_nil] at e
  rw [e]
  rcases h01 with rfl | rfl
  · rfl
  · exfalso
    have hp := hH.1 rfl
    simp only [List.length_cons, List.length_nil, zero_add, Nat.reduceAdd, Nat.add_one_sub_one] at hp
    rw [hs] at hp
    set t : ℝ := |1 / 3| / √(553 / 300 / ((3 : Nat) : ℝ)) with ht
    have ht0 : 0 ≤ t := by positivity
    have ht1 : t ^ 2 = 100 / 553 := by
      rw [ht, div_pow, Real.sq_sqrt (by positivity), sq_abs]
      norm_num
    have hsq : √(2 + t ^ 2) * (9 / 10) ≥ t := by
      have h1 : t ≤ 1 := by nlinarith
      have h2 : (√(2 + t ^ 2)) ^ 2 = 2 + t ^ 2 := Real.sq_sqrt (by positivity)
      have h3 : 1.4 ≤ √(2 + t ^ 2) := Real.le_sqrt_of_sq_le (by nlinarith)
      linarith
    have hpos : 0 < √(2 + t ^ 2) := Real.sqrt_pos.2 (by positivity)
    have : t / (2 * √(2 + t ^ 2)) ≤ 45 / 100 := by
      rw [div_le_iff₀ (by positivity)]
      linarith
    norm_num at hp
    linarith

/-- **C103**, violation: an array of one row and one of one dimension are not accepted together, although each is ravelled; nor is a column beside an array of one
dimension. -/
theorem C103_layout_violation {a b : List ℝ} (h : a.length = b.length) (h2 : 2 ≤ a.length) (alpha : ℝ) :
    pairedTtest sf (.mat a.length [a]) (.vec b) alpha = .error .assertionError ∧
    pairedTtest sf (.vec a) (.mat 1 (b.map (fun x => [x]))) alpha = .error .typeError ∧
    pairedTtest sf (.mat a.length [a]) (.mat 1 (b.map (fun x => [x]))) alpha = .error .assertionError := by
  unfold pairedTtest
  simp only [Arr.len, List.length_map, List.length_singleton, true_or, if_true]
  refine ⟨if_pos (by omega), ?_, if_pos (by omega)⟩
  rw [if_neg (not_not.2 h), if_neg (by omega), if_pos (Or.inr trivial)]

/-- **C103**: two rows, or two columns, are treated like two arrays of one dimension. -/
theorem C103_rows_columns {a b : List ℝ} (h : a.length = b.length) (alpha : ℝ) :
    pairedTtest sf (.mat a.length [a]) (.mat b.length [b]) alpha = pairedTtest sf (.vec a) (.vec b) alpha ∧
    pairedTtest sf (.mat 1 (a.map (fun x => [x]))) (.mat 1 (b.map (fun x => [x]))) alpha = pairedTtest sf (.vec a) (.vec b) alpha := by
  have e : ∀ l : List ℝ, (l.map (fun x => [x])).flatten = l := by
    intro l
    induction l with
    | nil => rfl
    | cons x l ih => simp [ih]
  unfold pairedTtest
  simp [Arr.len, Arr.ravel, h, e]

/-! ## Concrete cases -/

/-- Pairs with mean difference 1 and variance 1. -/
example : Spec.MeanVariance [(1, 1), (3, 2), (5, 3)] 1 1 := by
  unfold Spec.MeanVariance
  constructor
  · simp [Fin.sum_univ_succ]; norm_num
  · simp [Fin.sum_univ_succ]; norm_num

/-- There are functions with the assumed properties. -/
example : Spec.IsStudent (fun _ t => if t ≤ 0 then 1 / 2 else if t ≤ 1 then 1 / 4 else 0) := by
  constructor
  · intro k t
    split_ifs <;> norm_num
  · intro k s t _ h
    split_ifs <;> first | linarith | norm_num

end Alipy.TTest

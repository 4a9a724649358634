import Verif.Spec.Share
import Verif.Props.Ranges
import Verif.Props.VoteRight
import Verif.Props.StaySelected
/-!
# C157: a few examples do not count for more than their share
-/
namespace Alipy.Share
open Alipy Alipy.Spec Alipy.RankMetrics Alipy.Improve Alipy.Perfect Alipy.Ranges
open Alipy.Noisy (majorityVote C131_plurality)

/-! ## Metrics that are means over the samples -/

theorem mean_share {n : Nat} {w f f' : Nat → ℚ} {B : ℚ} {P : Nat → Prop} [DecidablePred P] (hw : ∀ i < n, 0 ≤ w i) (hp : ∃ i < n, 0 < w i)
    (he : ∀ i < n, ¬ P i → f i = f' i) (hB : ∀ i < n, |f i - f' i| ≤ B) : |mean n w f - mean n w f'| ≤ B * fraction n w P := by
  have hs : 0 < ∑ i ∈ Finset.range n, w i := by
    obtain ⟨i, hi, h0⟩ := hp
    exact Finset.sum_pos' (fun j hj => hw j (Finset.mem_range.1 hj)) ⟨i, Finset.mem_range.2 hi, h0⟩
  unfold mean fraction
  rw [← sub_div, ← Finset.sum_sub_distrib, abs_div, abs_of_pos hs, ← mul_div_assoc, div_le_div_iff_of_pos_right hs, Finset.mul_sum]
  refine (Finset.abs_sum_le_sum_abs _ _).trans (Finset.sum_le_sum (fun i hi => ?_))
  have hi' := Finset.mem_range.1 hi
  rw [← mul_sub, abs_mul, abs_of_nonneg (hw i hi')]
  by_cases h : P i
  · rw [if_pos h, mul_comm]
    exact mul_le_mul_of_nonneg_right (hB i hi') (hw i hi')
  · rw [if_neg h, he i hi' h]
    simp

theorem fraction_mean (n : Nat) (w : Nat → ℚ) (P : Nat → Prop) [DecidablePred P] : fraction n w P = mean n w (fun i => if P i then 1 else 0) := by
  unfold mean fraction
  congr 1
  refine Finset.sum_congr rfl (fun i _ => ?_)
  by_cases h : P i <;> simp [h]

theorem fraction_share {n : Nat} {w : Nat → ℚ} {Q Q' P : Nat → Prop} [DecidablePred Q] [DecidablePred Q'] [DecidablePred P] (hw : ∀ i < n, 0 ≤ w i)
    (hp : ∃ i < n, 0 < w i) (he : ∀ i < n, ¬ P i → (Q i ↔ Q' i)) : |fraction n w Q - fraction n w Q'| ≤ fraction n w P := by
  rw [fraction_mean n w Q, fraction_mean n w Q']
  have := mean_share (B := 1) (P := P) (f := fun i => if Q i then 1 else 0) (f' := fun i => if Q' i then 1 else 0) hw hp
    (fun i hi h => by simp only [he i hi h]) (fun i _ => by
      by_cases h1 : Q i <;> by_cases h2 : Q' i <;> simp [h1, h2])
  rwa [one_mul] at this

/-- Without weights the share of the changed samples is their number over the number of samples. -/
theorem share_count (n : Nat) (P : Nat → Prop) [DecidablePred P] : fraction n (fun _ => 1) P = ((List.range n).countP (fun i => decide (P i)) : ℚ) / n := by
  unfold fraction
  congr 1
  · induction n with
    | zero => simp
    | succ n ih =>
      rw [Finset.sum_range_succ, ih, List.range_succ, List.countP_append]
      by_cases h : P n <;> simp [h]
  · simp

/-- **C157**: the accuracy of label vectors. When labels or predictions change in a few samples, the accuracy and the zero-one loss change by at most
the share of those samples in the total weight. -/
theorem C157_accuracy {a b a' b' : List Int} (h : a.length = b.length) (ha : a'.length = a.length) (hb : b'.length = b.length) {w : Option (List ℚ)}
    (hw : Weights a.length w) :
    ∃ q q', accuracyScore (.vec a) (.vec b) w = .ok (some q) ∧ accuracyScore (.vec a') (.vec b') w = .ok (some q') ∧
      |q - q'| ≤ fraction a.length (weight w) (fun i => a[i]? ≠ a'[i]? ∨ b[i]? ≠ b'[i]?) := by
  have e := C37_accuracy_vectors h w hw.fit (weight_sum hw)
  have hw' : Weights a'.length w := by rw [ha]; exact hw
  have e' := C37_accuracy_vectors (show a'.length = b'.length by rw [ha, hb, h]) w hw'.fit (weight_sum hw')
  refine ⟨_, _, e, e', ?_⟩
  rw [ha]
  refine fraction_share hw.nonneg hw.pos (fun i _ hn => ?_)
  push Not at hn
  rw [hn.1, hn.2]

/-- **C157**: so does the zero-one loss. -/
theorem C157_zero_one_loss {a b a' b' : List Int} (h : a.length = b.length) (ha : a'.length = a.length) (hb : b'.length = b.length) {w : Option (List ℚ)}
    (hw : Weights a.length w) :
    ∃ q q', zeroOneLoss (.vec a) (.vec b) true w = .ok (some q) ∧ zeroOneLoss (.vec a') (.vec b') true w = .ok (some q') ∧
      |q - q'| ≤ fraction a.length (weight w) (fun i => a[i]? ≠ a'[i]? ∨ b[i]? ≠ b'[i]?) := by
  obtain ⟨q, q', e, e', hq⟩ := C157_accuracy h ha hb hw
  refine ⟨_, _, C37_zero_one_loss _ _ w e, C37_zero_one_loss _ _ w e', ?_⟩
  rwa [sub_sub_sub_cancel_left, abs_sub_comm]

/-- **C157**: the same for label matrices: the share of the samples in whose rows labels or predictions change. -/
theorem C157_accuracy_rows {c : Nat} (hc : 1 < c) {a b a' b' : List (List Int)} (h : a.length = b.length) (ha : a'.length = a.length) (hb : b'.length = b.length)
    (h2 : AtMostTwoValues a.flatten ∧ AtMostTwoValues b.flatten ∧ AtMostTwoValues a'.flatten ∧ AtMostTwoValues b'.flatten) {w : Option (List ℚ)} (hw : Weights a.length w) :
    ∃ q q', accuracyScore (.mat c a) (.mat c b) w = .ok (some q) ∧ accuracyScore (.mat c a') (.mat c b') w = .ok (some q') ∧
      zeroOneLoss (.mat c a) (.mat c b) true w = .ok (some (1 - q)) ∧ zeroOneLoss (.mat c a') (.mat c b') true w = .ok (some (1 - q')) ∧
      |q - q'| ≤ fraction a.length (weight w) (fun i => a[i]? ≠ a'[i]? ∨ b[i]? ≠ b'[i]?) ∧
      |(1 - q) - (1 - q')| ≤ fraction a.length (weight w) (fun i => a[i]? ≠ a'[i]? ∨ b[i]? ≠ b'[i]?) := by
  have e := C37_accuracy_rows hc h h2.1 h2.2.1 w hw.fit (weight_sum hw)
  have hw' : Weights a'.length w := by rw [ha]; exact hw
  have e' := C37_accuracy_rows hc (show a'.length = b'.length by rw [ha, hb, h]) h2.2.2.1 h2.2.2.2 w hw'.fit (weight_sum hw')
  have key : |fraction a.length (weight w) (fun i => a[i]? = b[i]?) - fraction a'.length (weight w) (fun i => a'[i]? = b'[i]?)| ≤
      fraction a.length (weight w) (fun i => a[i]? ≠ a'[i]? ∨ b[i]? ≠ b'[i]?) := by
    rw [ha]
    refine fraction_share hw.nonneg hw.pos (fun i _ hn => ?_)
    push Not at hn
    rw [hn.1, hn.2]
  exact ⟨_, _, e, e', C37_zero_one_loss _ _ w e, C37_zero_one_loss _ _ w e', key, by rwa [sub_sub_sub_cancel_left, abs_sub_comm]⟩

/-- **C157**: and the Hamming loss, by at most the number of the samples over the number of all samples. -/
theorem C157_hamming {a b a' b' : List Int} (h : a.length = b.length) (ha : a'.length = a.length) (hb : b'.length = b.length) (hne : a ≠ []) :
    ∃ q q', hammingLoss (.vec a) (.vec b) = .ok (some q) ∧ hammingLoss (.vec a') (.vec b') = .ok (some q') ∧
      |q - q'| ≤ ((List.range a.length).countP (fun i => decide (a[i]? ≠ a'[i]? ∨ b[i]? ≠ b'[i]?)) : ℚ) / a.length := by
  have hl := List.length_pos_iff.2 hne
  have hne' : a' ≠ [] := List.length_pos_iff.1 (by omega)
  refine ⟨_, _, C39_hamming_vectors h hne, C39_hamming_vectors (by rw [ha, hb, h]) hne', ?_⟩
  rw [ha, ← share_count]
  refine fraction_share (by simp) ⟨0, hl, one_pos⟩ (fun i _ hn => ?_)
  push Not at hn
  rw [hn.1, hn.2]

/-! ## Metrics of multi-label scores -/

/-- **C157**: of label matrices the Hamming loss changes by at most the share of the cells that change. -/
theorem C157_hamming_cells {c : Nat} (hc : 1 < c) {a b a' b' : List (List Int)} (hne : a ≠ []) (h : a.length = b.length) (ha : a'.length = a.length) (hb : b'.length = b.length)
    (hr : Rect c a ∧ Rect c b ∧ Rect c a' ∧ Rect c b')
    (h2 : AtMostTwoValues a.flatten ∧ AtMostTwoValues b.flatten ∧ AtMostTwoValues a'.flatten ∧ AtMostTwoValues b'.flatten) :
    ∃ q q', hammingLoss (.mat c a) (.mat c b) = .ok (some q) ∧ hammingLoss (.mat c a') (.mat c b') = .ok (some q') ∧
      |q - q'| ≤ ((List.range (a.length * c)).countP (fun i => decide (a.flatten[i]? ≠ a'.flatten[i]? ∨ b.flatten[i]? ≠ b'.flatten[i]?)) : ℚ) / (a.length * c : Nat) := by
  have hl := List.length_pos_iff.2 hne
  have hne' : a' ≠ [] := List.length_pos_iff.1 (by omega)
  refine ⟨_, _, C39_hamming_matrices_partial hc hne h hr.1 hr.2.1 h2.1 h2.2.1, C39_hamming_matrices_partial hc hne' (by rw [ha, hb, h]) hr.2.2.1 hr.2.2.2 h2.2.2.1 h2.2.2.2, ?_⟩
  rw [ha, ← share_count]
  refine fraction_share (by simp) ⟨0, Nat.mul_pos hl (by omega), one_pos⟩ (fun i _ hn => ?_)
  push Not at hn
  rw [hn.1, hn.2]

/-- Sample `i` is not as it was. -/
abbrev RowChanged (y y' : List (List Int)) (s s' : List (List ℚ)) (i : Nat) : Prop := y[i]? ≠ y'[i]? ∨ s[i]? ≠ s'[i]?

theorem row_same {y y' : List (List Int)} {s s' : List (List ℚ)} {i : Nat} (h : ¬ RowChanged y y' s s' i) :
    y.getD i [] = y'.getD i [] ∧ s.getD i [] = s'.getD i [] := by
  unfold RowChanged at h
  push Not at h
  simp [List.getD_eq_getElem?_getD, h.1, h.2]

theorem dist_unit {a b : ℚ} (ha : 0 ≤ a ∧ a ≤ 1) (hb : 0 ≤ b ∧ b ≤ 1) : |a - b| ≤ 1 := abs_le.2 ⟨by linarith [ha.1, hb.2], by linarith [ha.2, hb.1]⟩

/-- **C157**: the label ranking loss changes by at most the share of the changed samples. -/
theorem C157_ranking_loss {c : Nat} (hc : 1 < c) {y y' : List (List Int)} {s s' : List (List ℚ)} (h : Scored c y s) (h' : Scored c y' s')
    (hl : y'.length = y.length) {w : Option (List ℚ)} (hw : Weights y.length w) :
    ∃ q q', labelRankingLoss c y s w = .ok (some q) ∧ labelRankingLoss c y' s' w = .ok (some q') ∧
      |q - q'| ≤ fraction y.length (weight w) (RowChanged y y' s s') := by
  refine ⟨_, _, rankingLoss_mean hc h hw, rankingLoss_mean hc h' (by rw [hl]; exact hw), ?_⟩
  rw [hl]
  have := mean_share (B := 1) (P := RowChanged y y' s s') (f := fun i => wrongPairs (relScores y s i) (irrScores y s i))
    (f' := fun i => wrongPairs (relScores y' s' i) (irrScores y' s' i)) hw.nonneg hw.pos
    (fun i _ hn => by
      obtain ⟨e1, e2⟩ := row_same hn
      simp only [relScores, irrScores, e1, e2])
    (fun i _ => dist_unit (C40_range _ _) (C40_range _ _))
  rwa [one_mul] at this

/-- **C157**: the coverage error changes by at most the number of labels times the share of the changed samples. -/
theorem C157_coverage {c : Nat} (hc : 1 < c) {y y' : List (List Int)} {s s' : List (List ℚ)} (h : Scored c y s) (h' : Scored c y' s')
    (hl : y'.length = y.length) {w : Option (List ℚ)} (hw : Weights y.length w) :
    ∃ q q', coverageError c y s w = .ok (some q) ∧ coverageError c y' s' w = .ok (some q') ∧
      |q - q'| ≤ c * fraction y.length (weight w) (RowChanged y y' s s') := by
  choose cov hcov using fun (p : List ℚ × List ℚ) => C64_exists p.1 p.2
  have hw' : Weights y'.length w := by rw [hl]; exact hw
  have hu : ∀ {y : List (List Int)} {s : List (List ℚ)}, Scored c y s → ∀ i < y.length, (0 : ℚ) ≤ cov (relScores y s i, s.getD i []) ∧ (cov (relScores y s i, s.getD i []) : ℚ) ≤ c := by
    intro y s h i hi
    refine ⟨by positivity, ?_⟩
    have h1 := coverage_le (hcov (relScores y s i, s.getD i []))
    have hs : i < s.length := h.len ▸ hi
    have h2 : (s.getD i []).length = c := by rw [List.getD_eq_getElem _ _ hs, h.srow _ (List.getElem_mem hs)]
    rw [h2] at h1
    exact_mod_cast h1
  refine ⟨_, _, C64_coverage hc h w hw.fit (weight_sum hw) (fun i => cov (relScores y s i, s.getD i [])) (fun i _ => hcov (relScores y s i, s.getD i [])),
    C64_coverage hc h' w hw'.fit (weight_sum hw') (fun i => cov (relScores y' s' i, s'.getD i [])) (fun i _ => hcov (relScores y' s' i, s'.getD i [])), ?_⟩
  rw [hl]
  refine mean_share hw.nonneg hw.pos (fun i _ hn => ?_) (fun i hi => ?_)
  · obtain ⟨e1, e2⟩ := row_same hn
    simp only [relScores, e1, e2]
  · have g1 := hu h i hi
    have g2 := hu h' i (by rw [hl]; exact hi)
    exact abs_le.2 ⟨by linarith [g1.1, g2.2], by linarith [g1.2, g2.1]⟩

/-- **C157**: the label ranking average precision without weights. -/
theorem C157_lrap {c : Nat} (hc : c ≠ 0) {y y' : List (List Int)} {s s' : List (List ℚ)} (h : Scored c y s) (h' : Scored c y' s')
    (hl : y'.length = y.length) :
    ∃ q q', lrapScore c y c s none = .ok (some q) ∧ lrapScore c y' c s' none = .ok (some q') ∧
      |q - q'| ≤ ((List.range y.length).countP (fun i => decide (RowChanged y y' s s' i)) : ℚ) / y.length := by
  refine ⟨_, _, C65_lrap h, C65_lrap h', ?_⟩
  rw [hl, ← share_count]
  have hc0 : (0 : ℚ) ≤ 1 / c := by positivity
  have := mean_share (B := 1) (P := RowChanged y y' s s') (f := Spec.samplePrecision y s) (f' := Spec.samplePrecision y' s') (w := fun _ => 1) (n := y.length) (by simp)
    ⟨0, List.length_pos_iff.2 h.ne, one_pos⟩
    (fun i _ hn => by
      obtain ⟨e1, e2⟩ := row_same hn
      simp only [Spec.samplePrecision, relScores, e1, e2])
    (fun i hi => by
      obtain ⟨a1, a2⟩ := sample_bounds hc h hi
      obtain ⟨b1, b2⟩ := sample_bounds hc h' (i := i) (by rw [hl]; exact hi)
      exact dist_unit ⟨hc0.trans a1, a2⟩ ⟨hc0.trans b1, b2⟩)
  rwa [one_mul] at this

/-- **C157**: the one error, as it is computed. -/
theorem C157_one_error {c : Nat} (hc : 1 < c) {y y' : List (List Int)} {s s' : List (List ℚ)} (h : Scored c y s) (h' : Scored c y' s')
    (hl : y'.length = y.length) {w : Option (List ℚ)} (hw : FitWeights y.length w) :
    ∃ q q', oneError c y s w = .ok q ∧ oneError c y' s' w = .ok q' ∧
      |q - q'| ≤ ((List.range y.length).countP (fun i => decide (RowChanged y y' s s' i)) : ℚ) / y.length := by
  refine ⟨_, _, C63_one_error_partial hc h w hw, C63_one_error_partial hc h' w (by rw [hl]; exact hw), ?_⟩
  rw [hl, ← share_count]
  refine fraction_share (by simp) ⟨0, List.length_pos_iff.2 h.ne, one_pos⟩ (fun i _ hn => ?_)
  obtain ⟨e1, e2⟩ := row_same hn
  rw [e1, e2]

/-! ## The area under the curve -/

theorem credit_bounds (p q : ℚ) : 0 ≤ credit p q ∧ credit p q ≤ 1 := by
  unfold credit
  split_ifs <;> norm_num

theorem sum_changes {f : ℚ → ℚ} {B : ℚ} (hB : 0 ≤ B) (hf : ∀ p, 0 ≤ f p ∧ f p ≤ B) : ∀ {l l' : List ℚ}, l'.length = l.length →
    |(l.map f).sum - (l'.map f).sum| ≤ changes l l' * B
  | [], [], _ => by simp [changes]
  | a :: l, b :: l', h => by
    have ih := sum_changes hB hf (l := l) (l' := l') (by simpa using h)
    simp only [List.map_cons, List.sum_cons]
    have e : (changes (a :: l) (b :: l') : ℚ) = changes l l' + (if a = b then 0 else 1) := by
      unfold changes
      rw [List.zip_cons_cons, List.countP_cons]
      by_cases hab : a = b <;> simp [hab]
    rw [e, add_mul]
    obtain ⟨h1, h2⟩ := abs_le.1 ih
    by_cases hab : a = b
    · subst hab
      rw [if_pos rfl, zero_mul]
      exact abs_le.2 ⟨by linarith, by linarith⟩
    · rw [if_neg hab, one_mul]
      obtain ⟨a1, a2⟩ := hf a
      obtain ⟨b1, b2⟩ := hf b
      exact abs_le.2 ⟨by linarith, by linarith⟩

theorem row_bounds (p : ℚ) : ∀ N : List ℚ, 0 ≤ (N.map (credit p)).sum ∧ (N.map (credit p)).sum ≤ N.length
  | [] => by simp
  | q :: N => by
    obtain ⟨h1, h2⟩ := row_bounds p N
    obtain ⟨g1, g2⟩ := credit_bounds p q
    simp only [List.map_cons, List.sum_cons, List.length_cons]
    push_cast
    exact ⟨by linarith, by linarith⟩

theorem pairs_share {P P' N N' : List ℚ} (hP : P'.length = P.length) (hN : N'.length = N.length) (hP0 : P ≠ []) (hN0 : N ≠ []) :
    |pairStatistic P N - pairStatistic P' N'| ≤ (changes P P' : ℚ) / P.length + (changes N N' : ℚ) / N.length := by
  have p0 : (0 : ℚ) < P.length := by exact_mod_cast List.length_pos_iff.2 hP0
  have n0 : (0 : ℚ) < N.length := by exact_mod_cast List.length_pos_iff.2 hN0
  have h1 := sum_changes (f := fun p => (N.map (credit p)).sum) n0.le (fun p => row_bounds p N) hP
  have h2 : ∀ l : List ℚ, |(l.map (fun p => (N.map (credit p)).sum)).sum - (l.map (fun p => (N'.map (credit p)).sum)).sum| ≤ l.length * changes N N' := by
    intro l
    induction l with
    | nil => simp
    | cons p l ih =>
      have := sum_changes (f := credit p) zero_le_one (credit_bounds p) hN
      rw [mul_one] at this
      simp only [List.map_cons, List.sum_cons, List.length_cons]
      push_cast
      obtain ⟨a1, a2⟩ := abs_le.1 this
      obtain ⟨b1, b2⟩ := abs_le.1 ih
      exact abs_le.2 ⟨by linarith, by linarith⟩
  have h3 := h2 P'
  rw [hP] at h3
  unfold pairStatistic
  rw [hP, hN, ← sub_div, abs_div, abs_of_pos (mul_pos p0 n0), div_le_iff₀ (mul_pos p0 n0)]
  have e : ((changes P P' : ℚ) / P.length + (changes N N' : ℚ) / N.length) * (P.length * N.length) = changes P P' * N.length + P.length * changes N N' := by
    field_simp
  rw [e]
  obtain ⟨a1, a2⟩ := abs_le.1 h1
  obtain ⟨b1, b2⟩ := abs_le.1 h3
  exact abs_le.2 ⟨by linarith, by linarith⟩

theorem scoresWith_length (P : Int → Bool) : ∀ {y : List Int} {s s' : List ℚ}, y.length = s.length → y.length = s'.length → (scoresWith P y s').length = (scoresWith P y s).length
  | [], _, _, _, _ => by simp [scoresWith]
  | c :: y, a :: s, b :: s', h, h' => by
    have ih := scoresWith_length P (y := y) (s := s) (s' := s') (by simpa using h) (by simpa using h')
    unfold scoresWith at *
    simp only [List.length_map] at ih
    by_cases hc : P c = true <;> simp [hc, ih]

/-- **C157**: when scores change, the area under the ROC curve changes by at most the share of the positive samples whose score changes plus the share of
the negative samples whose score changes. -/
theorem C157_auc {y : List Int} {s s' : List ℚ} {pos : Option Int} (h : y.length = s.length) (h' : y.length = s'.length) (hok : pos ≠ none ∨ BinaryLabels y)
    (hP : positives pos y s ≠ []) (hN : negatives pos y s ≠ []) :
    ∃ q q', rocAucScore y s pos = .ok q ∧ rocAucScore y s' pos = .ok q' ∧
      |q - q'| ≤ (changes (positives pos y s) (positives pos y s') : ℚ) / (positives pos y s).length +
        (changes (negatives pos y s) (negatives pos y s') : ℚ) / (negatives pos y s).length := by
  have eP : (positives pos y s').length = (positives pos y s).length := scoresWith_length _ h h'
  have eN : (negatives pos y s').length = (negatives pos y s).length := scoresWith_length _ h h'
  have hP' : positives pos y s' ≠ [] := by
    rw [← List.length_pos_iff, eP]; exact List.length_pos_iff.2 hP
  have hN' : negatives pos y s' ≠ [] := by
    rw [← List.length_pos_iff, eN]; exact List.length_pos_iff.2 hN
  exact ⟨_, _, C38_auc h hok hP hN, C38_auc h' hok hP' hN', pairs_share eP eN hP hN⟩

/-! ## Votes -/

theorem count_changes {β : Type} [DecidableEq β] (t : β) : ∀ {l l' : List β}, l'.length = l.length → l.count t ≤ l'.count t + changes l l' ∧ l'.count t ≤ l.count t + changes l l'
  | [], [], _ => by simp [changes]
  | a :: l, b :: l', h => by
    have ih := count_changes t (l := l) (l' := l') (by simpa using h)
    have e : changes (a :: l) (b :: l') = changes l l' + (if a = b then 0 else 1) := by
      unfold changes
      rw [List.zip_cons_cons, List.countP_cons]
      by_cases hab : a = b <;> simp [hab]
    rw [e, List.count_cons, List.count_cons]
    by_cases hab : a = b
    · subst hab
      rw [if_pos rfl]
      omega
    · rw [if_neg hab]
      by_cases ha : a = t <;> by_cases hb : b = t <;> simp [ha, hb] <;> omega

/-- **C157**: a label that leads by more than twice the number of annotators who change their answer still wins the majority vote. -/
theorem C157_vote {β K : Type} [DecidableEq β] {labels labels' : List β} (hl : labels'.length = labels.length) {t : β}
    (ht : 2 * changes labels labels' < labels.count t) (h : ∀ x, x ≠ t → labels.count x + 2 * changes labels labels' < labels.count t) (w : Option (List K))
    (hw : ∀ ws, w = some ws → ws.length = labels.length) :
    majorityVote labels w = .ok (labels.count t, t) ∧ majorityVote labels' w = .ok (labels'.count t, t) := by
  have ct := count_changes t hl
  refine ⟨C131_plurality (List.count_pos_iff.1 (by omega)) (fun x _ hx => ?_) w hw,
    C131_plurality (List.count_pos_iff.1 (by omega)) (fun x _ hx => ?_) w (fun ws e => (hw ws e).trans hl.symm)⟩
  · have := h x hx
    omega
  · have := h x hx
    have := count_changes x hl
    omega

/-! ## Selection -/

section
open Alipy.Select Alipy.LeaveOut
variable {α K : Type} [DecidableEq α]

theorem best_replaces {R R' : α → α → Prop} {u : List α} {k : Nat} {S S' d : List α} (hS : Best R u k S) (hS' : Best R' u k S')
    (h : ∀ x ∈ u, ∀ z ∈ u, x ∉ d → z ∉ d → z ≠ x → R z x → ¬ R' x z) : (S.filter (fun x => decide (x ∉ S'))).length ≤ d.length := by
  obtain ⟨a1, a2, a3, a4⟩ := hS
  obtain ⟨b1, b2, b3, b4⟩ := hS'
  have tofin : ∀ {S S' : List α}, S.Nodup → (S.filter (fun x => decide (x ∉ S'))).length = (S.toFinset \ S'.toFinset).card := by
    intro S S' hn
    rw [← List.toFinset_card_of_nodup (hn.filter _)]
    congr 1
    ext x
    simp
  have hcard : S.toFinset.card = S'.toFinset.card := by
    rw [List.toFinset_card_of_nodup a1, List.toFinset_card_of_nodup b1]; omega
  have hcomm := Finset.card_sdiff_comm hcard
  rw [tofin a1]
  by_contra hc
  have out : ∀ A : Finset α, d.length < A.card → ∃ x ∈ A, x ∉ d := by
    intro A hA
    by_contra hn
    push Not at hn
    have : A ⊆ d.toFinset := fun x hx => List.mem_toFinset.2 (hn x hx)
    have := (Finset.card_le_card this).trans (List.toFinset_card_le d)
    omega
  obtain ⟨x, hx, hxd⟩ := out _ (by omega : d.length < (S.toFinset \ S'.toFinset).card)
  obtain ⟨z, hz, hzd⟩ := out _ (by omega : d.length < (S'.toFinset \ S.toFinset).card)
  simp only [Finset.mem_sdiff, List.mem_toFinset] at hx hz
  exact h x (a2 x hx.1) z (b2 z hz.1) hxd hzd (fun e => hz.2 (e ▸ hx.1)) (a4 z (b2 z hz.1) hz.2 x hx.1) (b4 x (a2 x hx.1) hx.2 z hz.1)

theorem largest_replaces [LinearOrder K] {u : Coll α} (hu : u.items.Nodup) {score score' : α → K} {k : Int} (hk : 0 < k) {d : List α} (ho : OnlyWithin d score score')
    (ht : ∀ x ∈ u.items, ∀ z ∈ u.items, x ∉ d → z ∉ d → x ≠ z → score x ≠ score z) :
    ReplacesAtMost d.length (fun a => byLargest a u (u.items.map score) k) (fun a => byLargest a u (u.items.map score') k) := by
  intro S S' hS hS'
  rw [largest_iff hu _ hk] at hS hS'
  refine best_replaces hS hS' (fun x hx z hz hxd hzd hzx h1 h2 => ?_)
  rw [ho z hzd, ho x hxd] at h2
  exact ht x hx z hz hxd hzd hzx.symm (le_antisymm h2 h1)

theorem smallest_replaces [LinearOrder K] {u : Coll α} (hu : u.items.Nodup) {score score' : α → K} {k : Int} (hk : 0 < k) {d : List α} (ho : OnlyWithin d score score')
    (ht : ∀ x ∈ u.items, ∀ z ∈ u.items, x ∉ d → z ∉ d → x ≠ z → score x ≠ score z) :
    ReplacesAtMost d.length (fun a => bySmallest a u (u.items.map score) k) (fun a => bySmallest a u (u.items.map score') k) := by
  intro S S' hS hS'
  rw [smallest_iff hu _ hk] at hS hS'
  refine best_replaces hS hS' (fun x hx z hz hxd hzd hzx h1 h2 => ?_)
  rw [ho z hzd, ho x hxd] at h2
  exact ht x hx z hz hxd hzd hzx.symm (le_antisymm h1 h2)

variable [Field K] [LinearOrder K] [IsStrictOrderedRing K]

/-- **C157**: least confident. When the predictions of a few examples change then at most as many of the selected ones are replaced, provided that no two
of the others are equally uncertain. -/
theorem C157_least_confident (log : K → K) {u : Coll α} (hu : u.items.Nodup) {c : Nat} (hc : c ≠ 1) {g g' : α → List K} {k : Int} (hk : 0 < k) {d : List α}
    (ho : OnlyWithin d g g') (hl : ∀ x ∈ u.items, (g x).length = c) {t : α → K} (ht : ∀ x ∈ u.items, IsTop (g x) (t x))
    (hne : ∀ x ∈ u.items, ∀ z ∈ u.items, x ∉ d → z ∉ d → x ≠ z → t x ≠ t z) :
    ReplacesAtMost d.length (fun a => uncertainty log a .leastConfident u (.mat c (u.items.map g)) k)
      (fun a => uncertainty log a .leastConfident u (.mat c (u.items.map g')) k) := by
  have e : ∀ x ∈ u.items, leastScore c (g x) = 1 - t x := by
    intro x hx
    obtain ⟨rest, hp, hr'⟩ := top_perm (ht x hx)
    rw [← hl x hx]
    unfold leastScore
    rw [(sorted_top hp hr')]
  have := largest_replaces hu (score := fun y => leastScore c (g y)) (score' := fun y => leastScore c (g' y)) hk (d := d)
    (fun y hy => by simp only [ho y hy]) (fun x hx z hz hxd hzd hxz he => by
      simp only [e x hx, e z hz] at he
      exact hne x hx z hz hxd hzd hxz (by linarith))
  simp only [uncertainty, if_neg hc, List.map_map]
  exact this

/-- **C157**: margin. -/
theorem C157_margin (log : K → K) {u : Coll α} (hu : u.items.Nodup) {c : Nat} (hc : c ≠ 1) {g g' : α → List K} {k : Int} (hk : 0 < k) {d : List α}
    (ho : OnlyWithin d g g') (hl : ∀ x ∈ u.items, (g x).length = c) {t : α → K} (ht : ∀ x ∈ u.items, IsMargin (g x) (t x))
    (hne : ∀ x ∈ u.items, ∀ z ∈ u.items, x ∉ d → z ∉ d → x ≠ z → t x ≠ t z) :
    ReplacesAtMost d.length (fun a => uncertainty log a .margin u (.mat c (u.items.map g)) k)
      (fun a => uncertainty log a .margin u (.mat c (u.items.map g')) k) := by
  have e : ∀ x ∈ u.items, marginScore c (g x) = -t x := by
    intro x hx
    obtain ⟨a, b, rest, hp, hab, hrest, ht'⟩ := ht x hx
    rw [← hl x hx, kth_margin hp hab hrest, ht']
    ring
  have := largest_replaces hu (score := fun y => marginScore c (g y)) (score' := fun y => marginScore c (g' y)) hk (d := d)
    (fun y hy => by simp only [ho y hy]) (fun x hx z hz hxd hzd hxz he => by
      simp only [e x hx, e z hz] at he
      exact hne x hx z hz hxd hzd hxz (by linarith))
  simp only [uncertainty, if_neg hc, List.map_map]
  exact this

omit [IsStrictOrderedRing K] in
/-- **C157**: distance to the boundary. -/
theorem C157_distance (log : K → K) {u : Coll α} (hu : u.items.Nodup) {g g' : α → K} {k : Int} (hk : 0 < k) {d : List α}
    (ho : OnlyWithin d g g') (hne : ∀ x ∈ u.items, ∀ z ∈ u.items, x ∉ d → z ∉ d → x ≠ z → |g x| ≠ |g z|) :
    ReplacesAtMost d.length (fun a => uncertainty log a .distance u (.vec (u.items.map g)) k) (fun a => uncertainty log a .distance u (.vec (u.items.map g')) k) := by
  have := smallest_replaces hu (score := fun y => |g y|) (score' := fun y => |g' y|) hk (d := d) (fun y hy => by simp only [ho y hy]) hne
  simp only [uncertainty, List.map_map]
  exact this

/-- **C157**: so does sampling by entropy. -/
theorem C157_entropy (log : K → K) {u : Coll α} (hu : u.items.Nodup) {c : Nat} (hc : c ≠ 1) {g g' : α → List K} {k : Int} (hk : 0 < k) {d : List α}
    (ho : OnlyWithin d g g') (hne : ∀ x ∈ u.items, ∀ z ∈ u.items, x ∉ d → z ∉ d → x ≠ z → entropyScore log (clip (g x)) ≠ entropyScore log (clip (g z))) :
    ReplacesAtMost d.length (fun a => uncertainty log a .entropy u (.mat c (u.items.map g)) k)
      (fun a => uncertainty log a .entropy u (.mat c (u.items.map g')) k) := by
  have := largest_replaces hu (score := fun y => entropyScore log (clip (g y))) (score' := fun y => entropyScore log (clip (g' y))) hk (d := d)
    (fun y hy => by simp only [ho y hy]) hne
  simp only [uncertainty, if_neg hc, List.map_map]
  exact this

/-- **C157**: and query by committee (vote entropy), when the votes on a few examples change. -/
theorem C157_committee (log : K → K) {u : Coll α} (hu : u.items.Nodup) {members members' : List (α → Int)} (hm : 2 ≤ members.length) (hm' : 2 ≤ members'.length) {k : Int} (hk : 0 < k)
    {d : List α} (ho : OnlyWithin d (fun x => members.map fun h => h x) (fun x => members'.map fun h => h x))
    (hne : ∀ x ∈ u.items, ∀ z ∈ u.items, x ∉ d → z ∉ d → x ≠ z → voteEntropy log (members.map fun h => h x) ≠ voteEntropy log (members.map fun h => h z)) :
    ReplacesAtMost d.length (fun a => qbc log a u (members.map fun h => u.items.map h) k) (fun a => qbc log a u (members'.map fun h => u.items.map h) k) := by
  have e : ∀ {members : List (α → Int)}, 2 ≤ members.length → ∀ a, qbc log a u (members.map (fun h => u.items.map h)) k =
      byLargest a u (u.items.map (fun x => voteEntropy log (members.map (fun h => h x)))) k := by
    intro members hm a
    unfold qbc byLargest
    rw [List.length_map, if_neg (by omega)]
    have hl : ((members.map (fun h => u.items.map h)).headD []).length = u.items.length := by
      cases members with
      | nil => simp at hm
      | cons m ms => simp
    rw [hl, range_map u.items _ (fun x => voteEntropy log (members.map (fun h => h x))) (fun i x hx => by rw [members_at _ _ _ hx])]
  simp only [e hm, e hm']
  exact largest_replaces hu hk (fun y hy => congrArg (voteEntropy log) (ho y hy)) hne

/-- **C157**: and with the divergence from the consensus, when the predictions for a few examples change. -/
theorem C157_divergence (log : K → K) {u : Coll α} (hu : u.items.Nodup) {labels : Nat} {members members' : List (α → List K)} (hm : 2 ≤ members.length) (hm' : 2 ≤ members'.length) {k : Int}
    (hk : 0 < k) {d : List α} (ho : OnlyWithin d (fun x => members.map fun h => h x) (fun x => members'.map fun h => h x))
    (hne : ∀ x ∈ u.items, ∀ z ∈ u.items, x ∉ d → z ∉ d → x ≠ z → klScore log labels (members.map fun h => h x) ≠ klScore log labels (members.map fun h => h z)) :
    ReplacesAtMost d.length (fun a => qbcKL log a u u.items.length labels (members.map fun h => u.items.map h) k)
      (fun a => qbcKL log a u u.items.length labels (members'.map fun h => u.items.map h) k) := by
  have e : ∀ {members : List (α → List K)}, 2 ≤ members.length → ∀ a, qbcKL log a u u.items.length labels (members.map (fun h => u.items.map h)) k =
      byLargest a u (u.items.map (fun x => klScore log labels (members.map (fun h => h x)))) k := by
    intro members hm a
    unfold qbcKL byLargest
    rw [List.length_map, if_neg (by omega), range_map u.items _ (fun x => klScore log labels (members.map (fun h => h x))) (fun i x hx => by rw [members_at _ _ _ hx])]
  simp only [e hm, e hm']
  exact largest_replaces hu hk (fun y hy => congrArg (klScore log labels) (ho y hy)) hne

end

/-! ## Examples -/

/-- One of four predictions changes: the accuracy changes by a quarter, which is the bound. -/
example : ∃ q q', accuracyScore (.vec [1, 0, 1, 0]) (.vec [1, 0, 1, 1]) none = .ok (some q) ∧ accuracyScore (.vec [1, 0, 1, 0]) (.vec [1, 0, 1, 0]) none = .ok (some q') ∧
    |q - q'| ≤ fraction 4 (weight none) (fun i => ([1, 0, 1, 0] : List Int)[i]? ≠ ([1, 0, 1, 0] : List Int)[i]? ∨ ([1, 0, 1, 1] : List Int)[i]? ≠ ([1, 0, 1, 0] : List Int)[i]?) :=
  C157_accuracy (a := [1, 0, 1, 0]) (b := [1, 0, 1, 1]) (a' := [1, 0, 1, 0]) (b' := [1, 0, 1, 0]) (w := none) rfl rfl rfl ⟨fun _ h => by simp at h, fun _ _ => zero_le_one, 0, by decide, zero_lt_one⟩

example : fraction 4 (weight none) (fun i => ([1, 0, 1, 0] : List Int)[i]? ≠ ([1, 0, 1, 0] : List Int)[i]? ∨ ([1, 0, 1, 1] : List Int)[i]? ≠ ([1, 0, 1, 0] : List Int)[i]?) = 1 / 4 := by
  decide +kernel

/-- Five annotators to one: one of them may turn. -/
example : majorityVote (K := ℚ) [1, 1, 1, 1, 1, 2] none = .ok (5, 1) ∧ majorityVote (K := ℚ) [1, 2, 1, 1, 1, 2] none = .ok (4, 1) :=
  C157_vote (labels := [1, 1, 1, 1, 1, 2]) (labels' := [1, 2, 1, 1, 1, 2]) (t := 1) rfl (by decide) (by
    intro x hx
    have e : changes [1, 1, 1, 1, 1, 2] [1, 2, 1, 1, 1, 2] = 1 := rfl
    rw [e]
    by_cases h2 : x = 2
    · subst h2; decide
    · simp [List.count_cons, Ne.symm hx, Ne.symm h2]) none nofun

/-- One of three positive scores changes. -/
example : ∃ q q', rocAucScore [1, 1, 1, 0] [3, 4, 5, 2] none = .ok q ∧ rocAucScore [1, 1, 1, 0] [1, 4, 5, 2] none = .ok q' ∧ |q - q'| ≤
    (changes (positives none [1, 1, 1, 0] [3, 4, 5, 2]) (positives none [1, 1, 1, 0] [1, 4, 5, 2]) : ℚ) / (positives none [1, 1, 1, 0] [3, 4, 5, 2]).length +
      (changes (negatives none [1, 1, 1, 0] [3, 4, 5, 2]) (negatives none [1, 1, 1, 0] [1, 4, 5, 2]) : ℚ) / (negatives none [1, 1, 1, 0] [3, 4, 5, 2]).length :=
  C157_auc rfl rfl (Or.inr (by decide)) (by decide +kernel) (by decide +kernel)

open Alipy.Select in
/-- Example 0 moves away from the boundary: at most one of the two selected examples is replaced. -/
example (u : Coll Nat) (hu : u.items = [0, 1, 2, 3]) (log : ℚ → ℚ) :
    ReplacesAtMost 1 (fun a => uncertainty log a .distance u (.vec (u.items.map (fun i : Nat => (i + 1 : ℚ)))) 2)
      (fun a => uncertainty log a .distance u (.vec (u.items.map (fun i : Nat => if i = 0 then (-9 : ℚ) else i + 1))) 2) :=
  C157_distance log (by rw [hu]; decide) (by decide) (d := [0]) (fun y hy => by
    have : y ≠ 0 := by simpa using hy
    simp [this]) (by
    intro x _ z _ _ _ hxz h
    rw [abs_of_nonneg (by positivity), abs_of_nonneg (by positivity)] at h
    exact hxz (by exact_mod_cast add_right_cancel h))

/-- A label of one of two samples changes: the accuracy of the label matrices changes by at most one half, the Hamming loss by at most a quarter. -/
example : (∃ q q', hammingLoss (.mat 2 [[1, 0], [0, 1]]) (.mat 2 [[1, 0], [0, 1]]) = .ok (some q) ∧ hammingLoss (.mat 2 [[1, 1], [0, 1]]) (.mat 2 [[1, 0], [0, 1]]) = .ok (some q') ∧ |q - q'| ≤ 1 / 4) ∧
    ∃ q q', accuracyScore (.mat 2 [[1, 0], [0, 1]]) (.mat 2 [[1, 0], [0, 1]]) none = .ok (some q) ∧ accuracyScore (.mat 2 [[1, 1], [0, 1]]) (.mat 2 [[1, 0], [0, 1]]) none = .ok (some q') ∧ |q - q'| ≤ 1 / 2 := by
  constructor
  · obtain ⟨q, q', h1, h2, h3⟩ := C157_hamming_cells (c := 2) (by norm_num) (a := [[1, 0], [0, 1]]) (b := [[1, 0], [0, 1]]) (a' := [[1, 1], [0, 1]]) (b' := [[1, 0], [0, 1]]) (by simp) rfl rfl rfl
      (by simp [Rect]) (by decide)
    exact ⟨q, q', h1, h2, h3.trans (by decide +kernel)⟩
  · obtain ⟨q, q', h1, h2, -, -, h3, -⟩ := C157_accuracy_rows (c := 2) (by norm_num) (a := [[1, 0], [0, 1]]) (b := [[1, 0], [0, 1]]) (a' := [[1, 1], [0, 1]]) (b' := [[1, 0], [0, 1]]) rfl rfl rfl
      (by decide) (w := none) ⟨fun _ h => by simp at h, fun _ _ => zero_le_one, 0, by decide, zero_lt_one⟩
    exact ⟨q, q', h1, h2, h3.trans (by decide +kernel)⟩

example : Scored 2 [[1, 0], [0, 1]] [[1, 0], [1, 0]] := ⟨by simp, rfl, by simp, by simp, by simp [ZeroOne]⟩

end Alipy.Share

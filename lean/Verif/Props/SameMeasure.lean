import Verif.Props.Parts
import Verif.Props.Ranking
import Verif.Props.Metrics
import Verif.Spec.Perfect
import Verif.Spec.SameMeasure
import Mathlib.Algebra.Order.BigOperators.Ring.Finset
/-!
# C144: metrics that measure the same thing agree
-/
namespace Alipy.SameMeasure
open Alipy.RankMetrics Alipy.Spec Alipy.Parts

/-! ## Pairs of scores -/

theorem credit_sum (p : ℚ) : ∀ N : List ℚ, (N.length : ℚ) - (N.countP (fun q => decide (p ≤ q)) : Nat) ≤ (N.map (fun q => credit p q)).sum ∧
    ((∀ q ∈ N, p ≠ q) → (N.map (fun q => credit p q)).sum = (N.length : ℚ) - (N.countP (fun q => decide (p ≤ q)) : Nat))
  | [] => by simp
  | q :: N => by
    obtain ⟨h1, h2⟩ := credit_sum p N
    rw [List.map_cons, List.sum_cons, List.countP_cons, List.length_cons]
    unfold credit at *
    refine ⟨?_, fun h => ?_⟩
    · by_cases hq : q < p
      · simp only [hq, not_le.2 hq, if_true, decide_false]
        push_cast
        simp
        linarith
      · simp only [hq, not_lt.1 hq, if_false, decide_true, if_true]
        push_cast
        split_ifs <;> linarith
    · rw [h2 (fun q hq => h q (by simp [hq]))]
      have hne := h q (by simp)
      by_cases hq : q < p
      · simp only [hq, not_le.2 hq, if_true, decide_false]
        push_cast
        simp
        ring
      · have hle := not_lt.1 hq
        simp only [hq, hle, if_false, decide_true, if_true, if_neg (fun e : q = p => hne e.symm)]
        push_cast
        ring

/-- The share of pairs in the wrong order is what is missing from the share of pairs in the right order, and ties count as wrong. -/
theorem wrong_pairs {P N : List ℚ} (hP : P ≠ []) (hN : N ≠ []) : 1 - pairStatistic P N ≤ wrongPairs P N ∧
    ((∀ p ∈ P, ∀ q ∈ N, p ≠ q) → wrongPairs P N = 1 - pairStatistic P N) := by
  have h1 : (0 : ℚ) < P.length := by exact_mod_cast List.length_pos_of_ne_nil hP
  have h2 : (0 : ℚ) < N.length := by exact_mod_cast List.length_pos_of_ne_nil hN
  have hs := sum_const_sub (N.length : ℚ) (fun p => ((N.countP (fun q => decide (p ≤ q)) : Nat) : ℚ)) P
  unfold wrongPairs pairStatistic
  have e : (1 : ℚ) = (P.length * N.length) / (P.length * N.length) := by field_simp
  constructor
  · rw [e, ← sub_div]
    apply div_le_div_of_nonneg_right _ (by positivity)
    have : (P.map (fun p => (N.length : ℚ) - (N.countP (fun q => decide (p ≤ q)) : Nat))).sum ≤ (P.map (fun p => (N.map (fun q => credit p q)).sum)).sum :=
      List.sum_le_sum (fun p _ => (credit_sum p N).1)
    linarith
  · intro ht
    rw [e, ← sub_div]
    congr 1
    have : P.map (fun p => (N.length : ℚ) - (N.countP (fun q => decide (p ≤ q)) : Nat)) = P.map (fun p => (N.map (fun q => credit p q)).sum) :=
      List.map_congr_left (fun p hp => ((credit_sum p N).2 (ht p hp)).symm)
    rw [← this, hs]
    ring

/-- If the area under the curve of a sample can be computed then it is the pair statistic of its scores, and there are scores of both kinds. -/
theorem auc_defined {y : List Int} {s : List ℚ} (h : y.length = s.length) (hz : ∀ c ∈ y, c = 0 ∨ c = 1) {a : ℚ} (ha : rocAucScore y s none = .ok a) :
    positives none y s ≠ [] ∧ negatives none y s ≠ [] ∧ a = pairStatistic (positives none y s) (negatives none y s) := by
  by_cases hy : y = []
  · subst hy
    have : s = [] := by simpa using h.symm
    subst this
    have e : rocAucScore [] [] none = .error .valueError := by decide +kernel
    rw [e] at ha
    cases ha
  have hok : (none : Option Int) ≠ none ∨ BinaryLabels y := Or.inr ⟨hy, Or.inl hz⟩
  by_cases hP : positives none y s = []
  · rw [C38_one_class h hok hy (Or.inl hP)] at ha
    cases ha
  by_cases hN : negatives none y s = []
  · rw [C38_one_class h hok hy (Or.inr hN)] at ha
    cases ha
  rw [C38_auc h hok hP hN] at ha
  cases ha
  exact ⟨hP, hN, rfl⟩

theorem row_scores {y : List Int} {s : List ℚ} (hz : ∀ c ∈ y, c = 0 ∨ c = 1) :
    scoresWith (fun c => decide (c ≠ 0)) y s = positives none y s ∧ scoresWith (fun c => decide (c = 0)) y s = negatives none y s := by
  constructor
  · exact scoresWith_congr _ (fun c hc => by rcases hz c hc with h | h <;> simp [h])
  · exact scoresWith_congr _ (fun c hc => by rcases hz c hc with h | h <;> simp [h])

/-- The loss of one sample and the area under its curve. -/
theorem row_loss {y : List Int} {s : List ℚ} (h : y.length = s.length) (hz : ∀ c ∈ y, c = 0 ∨ c = 1) {a : ℚ} (ha : rocAucScore y s none = .ok a) :
    1 - a ≤ rankingLossRow y s ∧ (s.Nodup → rankingLossRow y s = 1 - a) := by
  obtain ⟨hP, hN, rfl⟩ := auc_defined h hz ha
  rw [C40_row y s h, (row_scores hz).1, (row_scores hz).2]
  refine ⟨(wrong_pairs hP hN).1, fun hd => (wrong_pairs hP hN).2 ?_⟩
  intro p hp q hq e
  subst e
  obtain ⟨u, hu, mu⟩ := mem_scoresWith hp
  obtain ⟨v, hv, mv⟩ := mem_scoresWith hq
  have := zip_nodup hd mu mv
  subst this
  simp at hu hv
  exact hv hu

/-! ## Ranking loss and areas under curves -/

section
variable {c : Nat} {y : List (List Int)} {s : List (List ℚ)}

theorem loss_mean (hc : 1 < c) (h : Scored c y s) (w : Option (List ℚ)) (hw : FitWeights y.length w) (hs : ∑ i ∈ Finset.range y.length, weight w i ≠ 0) :
    labelRankingLoss c y s w = .ok (some (mean y.length (weight w) (fun i => rankingLossRow (y.getD i []) (s.getD i [])))) := by
  rw [ranking_avg hc h w hw]
  refine npAverage_mean y s _ _ h.len ?_ w (weightsFit_iff.2 hw) hs
  intro i h1 h2
  rw [List.getD_eq_getElem _ _ h1, List.getD_eq_getElem _ _ h2]

theorem row_ok (h : Scored c y s) {i : Nat} (hi : i < y.length) : (y.getD i []).length = (s.getD i []).length ∧ ∀ c ∈ y.getD i [], c = 0 ∨ c = 1 := by
  have h2 : i < s.length := by rw [← h.len]; exact hi
  rw [List.getD_eq_getElem _ _ hi, List.getD_eq_getElem _ _ h2]
  exact ⟨by rw [h.yrow _ (List.getElem_mem hi), h.srow _ (List.getElem_mem h2)], h.zo _ (List.getElem_mem hi)⟩

theorem mean_compl {n : Nat} {w a b : Nat → ℚ} (hs : ∑ i ∈ Finset.range n, w i ≠ 0) (h : ∀ i < n, b i = 1 - a i) : mean n w b = 1 - mean n w a := by
  unfold mean
  rw [eq_sub_iff_add_eq, ← add_div, div_eq_one_iff_eq hs, ← Finset.sum_add_distrib]
  refine Finset.sum_congr rfl (fun i hi => ?_)
  rw [h i (Finset.mem_range.1 hi)]
  ring

/-- **C144**: without ties the ranking loss is one minus the mean of the areas under the curves of the samples. -/
theorem C144_loss_is_missing_area (hc : 1 < c) (h : Scored c y s) (hd : ∀ r ∈ s, r.Nodup) (w : Option (List ℚ)) (hw : FitWeights y.length w)
    (hs : ∑ i ∈ Finset.range y.length, weight w i ≠ 0) (a : Nat → ℚ) (ha : ∀ i < y.length, rocAucScore (y.getD i []) (s.getD i []) none = .ok (a i)) :
    labelRankingLoss c y s w = .ok (some (1 - mean y.length (weight w) a)) := by
  rw [loss_mean hc h w hw hs, mean_compl hs]
  intro i hi
  obtain ⟨h1, h2⟩ := row_ok h hi
  refine (row_loss h1 h2 (ha i hi)).2 ?_
  have h2 : i < s.length := by rw [← h.len]; exact hi
  rw [List.getD_eq_getElem _ _ h2]
  exact hd _ (List.getElem_mem h2)

/-- **C144**: with ties it is not less. -/
theorem C144_loss_with_ties (hc : 1 < c) (h : Scored c y s) (w : Option (List ℚ)) (hw : Weights y.length w)
    (a : Nat → ℚ) (ha : ∀ i < y.length, rocAucScore (y.getD i []) (s.getD i []) none = .ok (a i)) :
    ∃ p, labelRankingLoss c y s w = .ok (some p) ∧ 1 - mean y.length (weight w) a ≤ p := by
  have hpos : 0 < ∑ i ∈ Finset.range y.length, weight w i := by
    obtain ⟨i, hi, h0⟩ := hw.pos
    exact Finset.sum_pos' (fun i hi => hw.nonneg i (Finset.mem_range.1 hi)) ⟨i, Finset.mem_range.2 hi, h0⟩
  refine ⟨_, loss_mean hc h w hw.fit hpos.ne', ?_⟩
  rw [← mean_compl (b := fun i => 1 - a i) hpos.ne' (fun _ _ => rfl)]
  unfold mean
  apply div_le_div_of_nonneg_right _ hpos.le
  refine Finset.sum_le_sum (fun i hi => ?_)
  have hi := Finset.mem_range.1 hi
  obtain ⟨h1, h2⟩ := row_ok h hi
  exact mul_le_mul_of_nonneg_left (row_loss h1 h2 (ha i hi)).1 (hw.nonneg i hi)

theorem classLabels_len (y : List (List Int)) (s : List (List ℚ)) (h : y.length = s.length) (j : Nat) : (classLabels y j).length = (Spec.classScores s j).length := by
  simp [classLabels, Spec.classScores, h]

/-- **C144**: if no two samples have the same score for a class, `micro_auc_score` is the mean of the areas under the curves of the classes. -/
theorem C144_micro_is_mean (hc : c ≠ 0) (h : Scored c y s) (w : Option (List ℚ)) (hw : FitWeights y.length w) (hd : ∀ j < c, (Spec.classScores s j).Nodup)
    (a : Nat → ℚ) (ha : ∀ j < c, rocAucScore (classLabels y j) (Spec.classScores s j) none = .ok (a j)) :
    microAuc c y c s w = .ok (mean c (fun _ => 1) a) := by
  have hz : ∀ j < c, ∀ v ∈ classLabels y j, v = 0 ∨ v = 1 := by
    intro j hj v hv
    obtain ⟨r, hr, rfl⟩ := List.mem_map.1 hv
    have : j < r.length := by rw [h.yrow r hr]; exact hj
    rw [List.getD_eq_getElem _ _ this]
    exact h.zo r hr _ (List.getElem_mem this)
  have hall : ∀ j < c, positives none (classLabels y j) (Spec.classScores s j) ≠ [] ∧ negatives none (classLabels y j) (Spec.classScores s j) ≠ [] ∧
      a j = pairStatistic (positives none (classLabels y j) (Spec.classScores s j)) (negatives none (classLabels y j) (Spec.classScores s j)) :=
    fun j hj => auc_defined (classLabels_len y s h.len j) (hz j hj) (ha j hj)
  rw [C66_macro_partial hc h w hw (fun j hj => ⟨⟨(hall j hj).1, (hall j hj).2.1⟩, ?_⟩)]
  · unfold mean
    congr 2
    · refine Finset.sum_congr rfl (fun j hj => ?_)
      rw [(hall j (Finset.mem_range.1 hj)).2.2, one_mul]
    · simp
  · intro p hp q hq e
    subst e
    obtain ⟨u, hu, mu⟩ := mem_scoresWith hp
    obtain ⟨v, hv, mv⟩ := mem_scoresWith hq
    have := zip_nodup (hd j hj) mu mv
    subst this
    simp at hu hv
    exact hv hu

theorem flipped_col {α : Type} (d : α) {c : Nat} {rows : List (List α)} (h : ∀ r ∈ rows, r.length = c) {i : Nat} (hi : i < rows.length) :
    (flipped d c rows).map (fun r => r.getD i d) = rows.getD i [] := by
  rw [List.getD_eq_getElem _ _ hi]
  have hl := h _ (List.getElem_mem hi)
  apply List.ext_getElem
  · simp [flipped, hl]
  · intro j h1 h2
    have hj : j < c := by simpa [flipped] using h1
    simp [flipped, hi, h2]

/-- **C144**: the ranking loss of the labels of the samples and the `micro_auc_score` of the flipped arrays add up to one. -/
theorem C144_flipped (hc : 1 < c) (h : Scored c y s) (hm : ∀ r ∈ y, 0 ∈ r ∧ 1 ∈ r) (hd : ∀ r ∈ s, r.Nodup) :
    ∃ p, labelRankingLoss c y s none = .ok (some p) ∧ microAuc y.length (flipped 0 c y) y.length (flipped 0 c s) none = .ok (1 - p) := by
  have hn : (y.length : ℚ) ≠ 0 := by
    have := h.ne
    simpa using this
  have hs : ∑ i ∈ Finset.range y.length, weight none i ≠ 0 := by simpa [weight] using hn
  have h' : Scored y.length (flipped 0 c y) (flipped 0 c s) := by
    refine ⟨?_, by simp [flipped], ?_, ?_, ?_⟩
    · intro e
      have := congrArg List.length e
      simp [flipped] at this
      omega
    · intro r hr
      obtain ⟨j, _, rfl⟩ := List.mem_map.1 hr
      simp
    · intro r hr
      obtain ⟨j, _, rfl⟩ := List.mem_map.1 hr
      simp [h.len]
    · intro r hr v hv
      obtain ⟨j, hj, rfl⟩ := List.mem_map.1 hr
      obtain ⟨r, hr, rfl⟩ := List.mem_map.1 hv
      have : j < r.length := by rw [h.yrow r hr]; simpa using hj
      rw [List.getD_eq_getElem _ _ this]
      exact h.zo r hr _ (List.getElem_mem this)
  have ey : ∀ i < y.length, classLabels (flipped 0 c y) i = y.getD i [] := fun i hi => flipped_col 0 h.yrow hi
  have es : ∀ i < y.length, Spec.classScores (flipped 0 c s) i = s.getD i [] := fun i hi => flipped_col 0 h.srow (by rw [← h.len]; exact hi)
  have hauc : ∀ i < y.length, rocAucScore (y.getD i []) (s.getD i []) none =
      .ok (pairStatistic (positives none (y.getD i []) (s.getD i [])) (negatives none (y.getD i []) (s.getD i []))) := by
    intro i hi
    obtain ⟨h1, h2⟩ := row_ok h hi
    have hmem : y.getD i [] ∈ y := by rw [List.getD_eq_getElem _ _ hi]; exact List.getElem_mem hi
    refine C38_auc h1 (Or.inr ⟨?_, Or.inl h2⟩) (scoresWith_ne h1 (hm _ hmem).2 (by simp)) (scoresWith_ne h1 (hm _ hmem).1 (by simp))
    intro e
    have := (hm _ hmem).1
    rw [e] at this
    cases this
  refine ⟨_, C144_loss_is_missing_area hc h hd none (by simp [FitWeights]) hs _ hauc, ?_⟩
  rw [C144_micro_is_mean (by simpa using h.ne) h' none (by simp [FitWeights]) ?_ _ (fun i hi => by rw [ey i hi, es i hi]; exact hauc i hi)]
  · rw [sub_sub_cancel]
    rfl
  · intro i hi
    rw [es i hi]
    have h2 : i < s.length := by rw [← h.len]; exact hi
    rw [List.getD_eq_getElem _ _ h2]
    exact hd _ (List.getElem_mem h2)

/-! ## One relevant label -/

theorem one_rel (h : Scored c y s) {i : Nat} (hi : i < y.length) (h1 : (y.getD i []).count 1 = 1) :
    ∃ r, positives none (y.getD i []) (s.getD i []) = [r] ∧ (s.getD i []).Perm (r :: negatives none (y.getD i []) (s.getD i [])) ∧
      (negatives none (y.getD i []) (s.getD i [])).length = c - 1 ∧ relScores y s i = [r] := by
  obtain ⟨hl, hz⟩ := row_ok h hi
  have h2 : i < s.length := by rw [← h.len]; exact hi
  have hlen : (s.getD i []).length = c := by rw [List.getD_eq_getElem _ _ h2]; exact h.srow _ (List.getElem_mem h2)
  have e1 : relScores y s i = positives none (y.getD i []) (s.getD i []) := rfl
  have hone : (positives none (y.getD i []) (s.getD i [])).length = 1 := by
    have : (positives none (y.getD i []) (s.getD i [])).length = ((y.getD i []).filter (fun c => decide (c = 1))).length := scoresWith_length _ _ _ hl
    rw [this, ← h1, List.count_eq_length_filter]
    congr 2
  obtain ⟨r, hr⟩ := List.length_eq_one_iff.1 hone
  have hp : (s.getD i []).Perm (positives none (y.getD i []) (s.getD i []) ++ negatives none (y.getD i []) (s.getD i [])) := by
    unfold positives negatives scoresWith
    rw [← List.map_append]
    have := List.filter_append_perm (fun p : Int × ℚ => decide (p.1 = (none : Option Int).getD 1)) ((y.getD i []).zip (s.getD i []))
    have := (this.map Prod.snd).symm
    rw [List.map_snd_zip (by omega)] at this
    simpa using this
  rw [hr] at hp
  refine ⟨r, hr, by simpa using hp, ?_, by rw [e1, hr]⟩
  have := hp.length_eq
  rw [List.length_append, hlen, List.length_singleton] at this
  omega

theorem one_row (h : Scored c y s) {i : Nat} (hi : i < y.length) (h1 : (y.getD i []).count 1 = 1) (hc : 1 < c) :
    (coverageRow (y.getD i []) (s.getD i []) : ℚ) = 1 + (c - 1 : Nat) * rankingLossRow (y.getD i []) (s.getD i []) ∧
    samplePrecision y s i = 1 / (coverageRow (y.getD i []) (s.getD i []) : ℚ) ∧ 1 ≤ coverageRow (y.getD i []) (s.getD i []) := by
  obtain ⟨hl, hz⟩ := row_ok h hi
  obtain ⟨r, e1, hp, hN, er⟩ := one_rel h hi h1
  have hcov := coverageRow_spec (y.getD i []) (s.getD i [])
  rw [(row_scores hz).1, e1] at hcov
  have hreach : coverageRow (y.getD i []) (s.getD i []) = reach (s.getD i []) r :=
    C64_unique hcov ⟨by simp, Or.inr ⟨r, by simp, rfl⟩⟩
  have hcount : reach (s.getD i []) r = (negatives none (y.getD i []) (s.getD i [])).countP (fun q => decide (r ≤ q)) + 1 := by
    unfold reach
    rw [hp.countP_eq, List.countP_cons_of_pos (by simp)]
  have hc1 : ((c - 1 : Nat) : ℚ) ≠ 0 := by
    have : c - 1 ≠ 0 := by omega
    exact_mod_cast this
  refine ⟨?_, ?_, by omega⟩
  · rw [hreach, hcount, C40_row _ _ hl, (row_scores hz).1, (row_scores hz).2, e1]
    unfold wrongPairs
    rw [hN]
    simp only [List.map_cons, List.map_nil, List.sum_cons, List.sum_nil, List.length_singleton, add_zero, Nat.cast_one, one_mul]
    rw [mul_div_cancel₀ _ hc1]
    push_cast
    ring
  · unfold Spec.samplePrecision avgPrecision
    rw [er, if_neg (by simp), hreach]
    simp [precisionAt, reach]

/-- **C144**: if every sample has one relevant label, the coverage error is determined by the ranking loss (ties included). -/
theorem C144_coverage (hc : 1 < c) (h : Scored c y s) (h1 : ∀ r ∈ y, r.count 1 = 1) (w : Option (List ℚ)) (hw : FitWeights y.length w)
    (hs : ∑ i ∈ Finset.range y.length, weight w i ≠ 0) :
    ∃ p, labelRankingLoss c y s w = .ok (some p) ∧ coverageError c y s w = .ok (some (1 + (c - 1 : Nat) * p)) := by
  refine ⟨_, loss_mean hc h w hw hs, ?_⟩
  rw [C64_coverage hc h w hw hs (fun i => coverageRow (y.getD i []) (s.getD i [])) ?_]
  · congr 2
    unfold mean
    rw [div_eq_iff hs, add_mul, mul_assoc, div_mul_cancel₀ _ hs, one_mul, Finset.mul_sum, ← Finset.sum_add_distrib]
    refine Finset.sum_congr rfl (fun i hi => ?_)
    have hi := Finset.mem_range.1 hi
    have hmem : y.getD i [] ∈ y := by rw [List.getD_eq_getElem _ _ hi]; exact List.getElem_mem hi
    simp only
    rw [(one_row h hi (h1 _ hmem) hc).1]
    ring
  · intro i hi
    obtain ⟨hl, hz⟩ := row_ok h hi
    have := coverageRow_spec (y.getD i []) (s.getD i [])
    rw [(row_scores hz).1] at this
    exact this

/-- **C144**: if every sample has one relevant label, the label ranking average precision is the mean of the inverse ranks of these labels, and at least
the inverse of the coverage error, which is the mean of the ranks. -/
theorem C144_precision (hc : 1 < c) (h : Scored c y s) (h1 : ∀ r ∈ y, r.count 1 = 1) :
    ∃ rank : Nat → Nat, (∀ i < y.length, IsCoverage (relScores y s i) (s.getD i []) (rank i)) ∧ ∃ p q : ℚ,
      lrapScore c y c s none = .ok (some p) ∧ p = mean y.length (fun _ => 1) (fun i => 1 / (rank i : ℚ)) ∧
      coverageError c y s none = .ok (some q) ∧ q = mean y.length (fun _ => 1) (fun i => (rank i : ℚ)) ∧ 1 / q ≤ p := by
  have hn : (0 : ℚ) < y.length := by
    have := List.length_pos_of_ne_nil h.ne
    exact_mod_cast this
  have hs : ∑ i ∈ Finset.range y.length, weight none i ≠ 0 := by simpa [weight] using hn.ne'
  have hmem : ∀ i < y.length, y.getD i [] ∈ y := fun i hi => by rw [List.getD_eq_getElem _ _ hi]; exact List.getElem_mem hi
  have hcov : ∀ i < y.length, IsCoverage (relScores y s i) (s.getD i []) (coverageRow (y.getD i []) (s.getD i [])) := by
    intro i hi
    obtain ⟨hl, hz⟩ := row_ok h hi
    have := coverageRow_spec (y.getD i []) (s.getD i [])
    rw [(row_scores hz).1] at this
    exact this
  have hpos : ∀ i ∈ Finset.range y.length, (0 : ℚ) < coverageRow (y.getD i []) (s.getD i []) := by
    intro i hi
    have hi := Finset.mem_range.1 hi
    have := (one_row h hi (h1 _ (hmem i hi)) hc).2.2
    exact_mod_cast this
  refine ⟨fun i => coverageRow (y.getD i []) (s.getD i []), hcov, _, _, C65_lrap h, ?_, C64_coverage hc h none (by simp [FitWeights]) hs _ hcov, rfl, ?_⟩
  · unfold mean
    congr 1
    refine Finset.sum_congr rfl (fun i hi => ?_)
    have hi := Finset.mem_range.1 hi
    rw [(one_row h hi (h1 _ (hmem i hi)) hc).2.1]
  · have hsq := Finset.sum_sq_le_sum_mul_sum_of_sq_le_mul (Finset.range y.length) (r := fun _ => (1 : ℚ))
      (f := fun i => (coverageRow (y.getD i []) (s.getD i []) : ℚ)) (g := fun i => samplePrecision y s i) (fun i hi => (hpos i hi).le)
      (fun i hi => by
        have hi' := Finset.mem_range.1 hi
        rw [(one_row h hi' (h1 _ (hmem i hi')) hc).2.1]
        exact (one_div_pos.2 (hpos i hi)).le)
      (fun i hi => by
        have hi' := Finset.mem_range.1 hi
        rw [(one_row h hi' (h1 _ (hmem i hi')) hc).2.1, mul_one_div_cancel (hpos i hi).ne']
        norm_num)
    have hq : 0 < ∑ i ∈ Finset.range y.length, (coverageRow (y.getD i []) (s.getD i []) : ℚ) :=
      Finset.sum_pos hpos (Finset.nonempty_range_iff.2 (by simpa using h.ne))
    unfold mean
    simp only [weight, one_mul, Finset.sum_const, Finset.card_range, nsmul_eq_mul, mul_one] at hsq ⊢
    rw [one_div_div, div_le_div_iff₀ hq hn]
    nlinarith

/-- **C144**: without ties and with relevant and irrelevant labels in every row, the two average precisions are the same. -/
theorem C144_two_precisions (h : Scored c y s) (hd : ∀ r ∈ s, r.Nodup) (hm : ∀ i < y.length, ¬ Degenerate c y s i) :
    ∃ p, averagePrecision c y c s none = .ok p ∧ lrapScore c y c s none = .ok (some p) :=
  ⟨_, C65_average_precision_partial h hd hm, C65_lrap h⟩

end

/-! ## Wrong cells and wrong examples -/

/-- **C144**: on label vectors the Hamming loss, the zero-one loss and one minus the accuracy are the same number. -/
theorem C144_vectors {a b : List Int} (h : a.length = b.length) (hne : a ≠ []) :
    ∃ q, hammingLoss (.vec a) (.vec b) = .ok (some q) ∧ zeroOneLoss (.vec a) (.vec b) true none = .ok (some q) ∧
      accuracyScore (.vec a) (.vec b) none = .ok (some (1 - q)) := by
  have hn : (a.length : ℚ) ≠ 0 := by simpa using hne
  have hs : ∑ i ∈ Finset.range a.length, weight none i ≠ 0 := by simpa [weight] using hn
  refine ⟨_, C39_hamming_vectors h hne, C37_zero_one_fraction h none (by simp [FitWeights]) hs, ?_⟩
  have h1 := C37_accuracy_vectors h none (by simp [FitWeights]) hs
  have h2 := C37_zero_one_loss (.vec a) (.vec b) none h1
  rw [C37_zero_one_fraction h none (by simp [FitWeights]) hs] at h2
  simp only [Except.ok.injEq, Option.some.injEq] at h2
  rw [h1]
  have e : (fun _ : Nat => (1 : ℚ)) = weight none := rfl
  rw [e, h2, sub_sub_cancel]

theorem cells_rows {c : Nat} : ∀ {a b : List (List Int)}, a.length = b.length → (∀ r ∈ a, r.length = c) → (∀ r ∈ b, r.length = c) →
    (a.zip b).countP (fun p => decide (p.1 ≠ p.2)) ≤ (a.flatten.zip b.flatten).countP (fun p => decide (p.1 ≠ p.2)) ∧
    (a.flatten.zip b.flatten).countP (fun p => decide (p.1 ≠ p.2)) ≤ c * (a.zip b).countP (fun p => decide (p.1 ≠ p.2))
  | [], [], _, _, _ => by simp
  | [], _ :: _, h, _, _ => by simp at h
  | _ :: _, [], h, _, _ => by simp at h
  | r :: a, t :: b, h, ha, hb => by
    obtain ⟨h1, h2⟩ := cells_rows (a := a) (b := b) (by simpa using h) (fun r hr => ha r (by simp [hr])) (fun r hr => hb r (by simp [hr]))
    have hl : r.length = t.length := by rw [ha r (by simp), hb t (by simp)]
    rw [List.flatten_cons, List.flatten_cons, List.zip_append hl, List.countP_append, List.zip_cons_cons, List.countP_cons]
    have hle : (r.zip t).countP (fun p => decide (p.1 ≠ p.2)) ≤ c := by
      refine List.countP_le_length.trans ?_
      simp [ha r (by simp)]
    by_cases hrt : r = t
    · subst hrt
      have : (r.zip r).countP (fun p => decide (p.1 ≠ p.2)) = 0 := by
        rw [List.countP_eq_zero]
        rintro ⟨u, v⟩ huv
        obtain ⟨i, hi, e⟩ := List.mem_iff_getElem.1 huv
        rw [List.getElem_zip, Prod.mk.injEq] at e
        simp [← e.1, ← e.2]
      simp only [ne_eq, not_true_eq_false, decide_false] at this ⊢
      simp only [this]
      simp
      simp at h1 h2
      exact ⟨h1, h2⟩
    · have : 1 ≤ (r.zip t).countP (fun p => decide (p.1 ≠ p.2)) := by
        by_contra hc
        have h0 : (r.zip t).countP (fun p => decide (p.1 ≠ p.2)) = 0 := by omega
        rw [List.countP_eq_zero] at h0
        apply hrt
        apply List.ext_getElem hl
        intro i hi1 hi2
        have := h0 (r[i], t[i]) (List.mem_iff_getElem.2 ⟨i, by simp; omega, by simp⟩)
        simpa using this
      simp only [ne_eq, hrt, not_false_eq_true, decide_true, if_true] at this hle ⊢
      constructor
      · simp only [ne_eq] at h1
        omega
      · simp only [ne_eq] at h2
        rw [Nat.mul_add, Nat.mul_one]
        omega

/-- **C144**: on label matrices the Hamming loss is at most one minus the accuracy, and at least that divided by the number of labels. -/
theorem C144_matrices {c : Nat} (hc : 1 < c) {a b : List (List Int)} (hne : a ≠ []) (h : a.length = b.length) (ha : ∀ r ∈ a, r.length = c)
    (hb : ∀ r ∈ b, r.length = c) (ha2 : AtMostTwoValues a.flatten) (hb2 : AtMostTwoValues b.flatten) :
    ∃ q p, hammingLoss (.mat c a) (.mat c b) = .ok (some q) ∧ accuracyScore (.mat c a) (.mat c b) none = .ok (some p) ∧ (1 - p) / c ≤ q ∧ q ≤ 1 - p := by
  have ha2' := numUnique_le_two.2 ha2
  have hb2' := numUnique_le_two.2 hb2
  have hneb : b ≠ [] := by rintro rfl; exact hne (List.length_eq_zero_iff.1 h)
  have e1 : typeOfTarget (.mat c a) = .ok .multilabel := by simp [typeOfTarget, Tgt.ravel, ha2', hc, hne]
  have e2 : typeOfTarget (.mat c b) = .ok .multilabel := by simp [typeOfTarget, Tgt.ravel, hb2', hc, hneb]
  have ht : checkTargets (.mat c a) (.mat c b) = .ok .multilabel := by simp [checkTargets, Tgt.len, h, e1, e2, joinType]
  have hn : (0 : ℚ) < a.length := by
    have := List.length_pos_of_ne_nil hne
    exact_mod_cast this
  have hcq : (0 : ℚ) < c := by exact_mod_cast (by omega : 0 < c)
  obtain ⟨k1, k2⟩ := cells_rows h ha hb
  have hacc : accuracyScore (.mat c a) (.mat c b) none = .ok (some (1 - ((a.zip b).countP (fun p => decide (p.1 ≠ p.2)) : Nat) / (a.length : ℚ))) := by
    unfold accuracyScore
    rw [ht]
    simp only
    rw [if_neg (by simp [weightsFit]), if_neg (by simp)]
    simp only [npAverage]
    have hz : (List.zipWith (fun r s => ofBool (decide (r = s))) a b).isEmpty = false := by
      rw [List.isEmpty_eq_false_iff]
      simp [hne, hneb]
    rw [hz, if_neg (by simp)]
    have : ∀ (a b : List (List Int)), a.length = b.length → (List.zipWith (fun r s => ofBool (decide (r = s))) a b).sum =
        (a.length : ℚ) - ((a.zip b).countP (fun p => decide (p.1 ≠ p.2)) : Nat) := by
      intro a
      induction a with
      | nil => intro b _; simp
      | cons r a ih =>
        intro b hb
        cases b with
        | nil => simp at hb
        | cons t b =>
          rw [List.zipWith_cons_cons, List.sum_cons, ih b (by simpa using hb), List.zip_cons_cons, List.countP_cons, List.length_cons]
          by_cases hrt : r = t
          · simp [hrt, ofBool]; ring
          · simp [hrt, ofBool]
    rw [this a b h]
    congr 2
    rw [List.length_zipWith, ← h, Nat.min_self, sub_div, div_self hn.ne']
  refine ⟨((a.flatten.zip b.flatten).countP (fun p => decide (p.1 ≠ p.2)) : Nat) / ((a.length * c : Nat) : ℚ), _, ?_, hacc, ?_, ?_⟩
  · unfold hammingLoss
    rw [ht]
    simp [neCount]
  · rw [sub_sub_cancel, div_div]
    push_cast
    apply div_le_div_of_nonneg_right _ (by positivity)
    exact_mod_cast k1
  · rw [sub_sub_cancel]
    push_cast
    rw [div_le_div_iff₀ (by positivity) hn]
    have : (((a.flatten.zip b.flatten).countP (fun p => decide (p.1 ≠ p.2)) : Nat) : ℚ) ≤ c * ((a.zip b).countP (fun p => decide (p.1 ≠ p.2)) : Nat) := by
      exact_mod_cast k2
    nlinarith

/-! ## Examples -/

/-- Two samples with three labels: one of two pairs wrong, none wrong. -/
example : labelRankingLoss 3 [[1, 0, 0], [0, 1, 1]] [[2, 3, 1], [1, 2, 3]] none = .ok (some (1 / 4)) ∧
    microAuc 2 (flipped 0 3 [[1, 0, 0], [0, 1, 1]]) 2 (flipped 0 3 [[2, 3, 1], [1, 2, 3]]) none = .ok (3 / 4) := by decide +kernel

example : ∃ p, labelRankingLoss 3 [[1, 0, 0], [0, 1, 1]] [[2, 3, 1], [1, 2, 3]] none = .ok (some p) ∧
    microAuc 2 (flipped 0 3 [[1, 0, 0], [0, 1, 1]]) 2 (flipped 0 3 [[2, 3, 1], [1, 2, 3]]) none = .ok (1 - p) :=
  C144_flipped (by decide) ⟨by decide, rfl, by decide, by decide, by unfold ZeroOne; decide⟩ (by decide) (by decide +kernel)

/-- Ranks 2 (because of a tie) and 1. -/
example : labelRankingLoss 3 [[1, 0, 0], [0, 0, 1]] [[2, 2, 1], [1, 2, 3]] none = .ok (some (1 / 4)) ∧
    coverageError 3 [[1, 0, 0], [0, 0, 1]] [[2, 2, 1], [1, 2, 3]] none = .ok (some (3 / 2)) ∧
    lrapScore 3 [[1, 0, 0], [0, 0, 1]] 3 [[2, 2, 1], [1, 2, 3]] none = .ok (some (3 / 4)) := by decide +kernel

example : ∃ p, labelRankingLoss 3 [[1, 0, 0], [0, 0, 1]] [[2, 2, 1], [1, 2, 3]] none = .ok (some p) ∧
    coverageError 3 [[1, 0, 0], [0, 0, 1]] [[2, 2, 1], [1, 2, 3]] none = .ok (some (1 + (3 - 1 : Nat) * p)) :=
  C144_coverage (by decide) ⟨by decide, rfl, by decide, by decide, by unfold ZeroOne; decide⟩ (by decide) none (by simp [FitWeights]) (by simp [weight])

/-- One cell of four is wrong, and one example of two. -/
example : hammingLoss (.mat 2 [[1, 0], [0, 1]]) (.mat 2 [[1, 1], [0, 1]]) = .ok (some (1 / 4)) ∧
    accuracyScore (.mat 2 [[1, 0], [0, 1]]) (.mat 2 [[1, 1], [0, 1]]) none = .ok (some (1 / 2)) := by decide +kernel

end Alipy.SameMeasure

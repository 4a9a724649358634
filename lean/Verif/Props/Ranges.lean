import Verif.Props.Chance
import Verif.Props.Consensus
import Verif.Props.Even
import Mathlib.Tactic.IntervalCases
/-!
# C154: every score and every uncertainty lies in its range
-/
namespace Alipy.Ranges
open Alipy Alipy.Spec Alipy.RankMetrics Alipy.Improve Alipy.Perfect

/-! ## Metrics -/

theorem mean_bounds {n : Nat} {w f : Nat → ℚ} {a b : ℚ} (hw : ∀ i < n, 0 ≤ w i) (hp : ∃ i < n, 0 < w i) (hf : ∀ i < n, a ≤ f i ∧ f i ≤ b) :
    a ≤ mean n w f ∧ mean n w f ≤ b := by
  have hs : 0 < ∑ i ∈ Finset.range n, w i := by
    obtain ⟨i, hi, h0⟩ := hp
    exact Finset.sum_pos' (fun j hj => hw j (Finset.mem_range.1 hj)) ⟨i, Finset.mem_range.2 hi, h0⟩
  unfold mean
  constructor
  · rw [le_div_iff₀ hs, Finset.mul_sum]
    refine Finset.sum_le_sum (fun i hi => ?_)
    have := Finset.mem_range.1 hi
    rw [mul_comm]
    exact mul_le_mul_of_nonneg_left (hf i this).1 (hw i this)
  · rw [div_le_iff₀ hs, Finset.mul_sum]
    refine Finset.sum_le_sum (fun i hi => ?_)
    have := Finset.mem_range.1 hi
    rw [mul_comm b]
    exact mul_le_mul_of_nonneg_left (hf i this).2 (hw i this)

/-- **C154**: the accuracy of label vectors and the zero-one loss lie between 0 and 1. -/
theorem C154_accuracy {a b : List Int} (h : a.length = b.length) {w : Option (List ℚ)} (hw : Weights a.length w) :
    ∃ q, accuracyScore (.vec a) (.vec b) w = .ok (some q) ∧ 0 ≤ q ∧ q ≤ 1 ∧
      ∃ q', zeroOneLoss (.vec a) (.vec b) true w = .ok (some q') ∧ 0 ≤ q' ∧ q' ≤ 1 := by
  obtain ⟨h1, h2, _⟩ := fraction_bounds (fun i => a[i]? = b[i]?) hw.nonneg (weight_sum hw)
  have e := C37_accuracy_vectors h w hw.fit (weight_sum hw)
  exact ⟨_, e, h1, h2, _, C37_zero_one_loss _ _ w e, by linarith, by linarith⟩

/-- **C154**: so do those of label matrices. -/
theorem C154_accuracy_rows {c : Nat} (hc : 1 < c) {a b : List (List Int)} (h : a.length = b.length) (ha : AtMostTwoValues a.flatten)
    (hb : AtMostTwoValues b.flatten) {w : Option (List ℚ)} (hw : Weights a.length w) :
    ∃ q, accuracyScore (.mat c a) (.mat c b) w = .ok (some q) ∧ 0 ≤ q ∧ q ≤ 1 ∧
      ∃ q', zeroOneLoss (.mat c a) (.mat c b) true w = .ok (some q') ∧ 0 ≤ q' ∧ q' ≤ 1 := by
  obtain ⟨h1, h2, _⟩ := fraction_bounds (fun i => a[i]? = b[i]?) hw.nonneg (weight_sum hw)
  have e := C37_accuracy_rows hc h ha hb w hw.fit (weight_sum hw)
  exact ⟨_, e, h1, h2, _, C37_zero_one_loss _ _ w e, by linarith, by linarith⟩

/-- **C154**: the label ranking loss lies between 0 and 1. -/
theorem C154_ranking_loss {c : Nat} (hc : 1 < c) {y : List (List Int)} {s : List (List ℚ)} (h : Scored c y s) {w : Option (List ℚ)} (hw : Weights y.length w) :
    ∃ q, labelRankingLoss c y s w = .ok (some q) ∧ 0 ≤ q ∧ q ≤ 1 :=
  ⟨_, rankingLoss_mean hc h hw, mean_bounds hw.nonneg hw.pos (fun _ _ => C40_range _ _)⟩

/-- **C154**: the one error, as it is computed, lies between 0 and 1. -/
theorem C154_one_error {c : Nat} (hc : 1 < c) {y : List (List Int)} {s : List (List ℚ)} (h : Scored c y s) {w : Option (List ℚ)} (hw : FitWeights y.length w) :
    ∃ q, oneError c y s w = .ok q ∧ 0 ≤ q ∧ q ≤ 1 := by
  have hl : (y.length : ℚ) ≠ 0 := by exact_mod_cast (List.length_pos_iff.2 h.ne).ne'
  obtain ⟨h1, h2, _⟩ := fraction_bounds (n := y.length) (w := fun _ => 1)
    (fun i => ((y.getD i []).map (fun c : Int => (c : ℚ))).sum = (s.getD i []).sum) (by simp) (by simpa using hl)
  exact ⟨_, C63_one_error_partial hc h w hw, h1, h2⟩

theorem coverage_le {rel all : List ℚ} {d : Nat} (h : IsCoverage rel all d) : d ≤ all.length := by
  rcases h.2 with ⟨_, rfl⟩ | ⟨r, _, rfl⟩
  · exact Nat.zero_le _
  · exact List.countP_le_length

theorem coverage_ge {rel irr all : List ℚ} (hp : all.Perm (rel ++ irr)) {d : Nat} (h : IsCoverage rel all d) (hr : rel ≠ []) : 1 ≤ d := by
  rcases h.2 with ⟨e, _⟩ | ⟨r, hr', rfl⟩
  · exact absurd e hr
  · exact List.countP_pos_iff.2 ⟨r, hp.mem_iff.2 (by simp [hr']), by simp⟩

/-- **C154**: the coverage error lies between 0 and the number of labels, and it is at least 1 if every sample has a relevant label. -/
theorem C154_coverage {c : Nat} (hc : 1 < c) {y : List (List Int)} {s : List (List ℚ)} (h : Scored c y s) {w : Option (List ℚ)} (hw : Weights y.length w) :
    ∃ q, coverageError c y s w = .ok (some q) ∧ 0 ≤ q ∧ q ≤ c ∧ ((∀ r ∈ y, (1 : Int) ∈ r) → 1 ≤ q) := by
  choose cov hcov using fun i => C64_exists (relScores y s i) (s.getD i [])
  have hu : ∀ i < y.length, (0 : ℚ) ≤ cov i ∧ (cov i : ℚ) ≤ c := by
    intro i hi
    refine ⟨by positivity, ?_⟩
    have h1 := coverage_le (hcov i)
    have hs : i < s.length := h.len ▸ hi
    rw [List.getD_eq_getElem _ _ hs, h.srow _ (List.getElem_mem hs)] at h1
    exact_mod_cast h1
  obtain ⟨g1, g2⟩ := mean_bounds hw.nonneg hw.pos hu
  refine ⟨_, C64_coverage hc h w hw.fit (weight_sum hw) cov (fun i _ => hcov i), g1, g2, fun hrel => ?_⟩
  refine (mean_bounds (b := c) hw.nonneg hw.pos (fun i hi => ⟨?_, (hu i hi).2⟩)).1
  have : relScores y s i ≠ [] := by
    unfold relScores
    have hs : i < s.length := h.len ▸ hi
    rw [List.getD_eq_getElem _ _ hs, List.getD_eq_getElem _ _ hi]
    exact (Chance.scoresWith_ne (by rw [h.yrow _ (List.getElem_mem hi), h.srow _ (List.getElem_mem hs)])).2 ⟨1, hrel _ (List.getElem_mem hi), by simp⟩
  exact_mod_cast coverage_ge (row_perm h hi) (hcov i) this

theorem avgPrecision_bounds {rel irr all : List ℚ} (hp : all.Perm (rel ++ irr)) (ha : all ≠ []) :
    1 / (all.length : ℚ) ≤ avgPrecision rel all ∧ avgPrecision rel all ≤ 1 := by
  have hn : (1 : ℚ) ≤ all.length := by exact_mod_cast List.length_pos_iff.2 ha
  unfold avgPrecision
  split_ifs with hr
  · exact ⟨by rw [div_le_one (by linarith)]; exact hn, le_refl _⟩
  · have hm : (0 : ℚ) < rel.length := by exact_mod_cast List.length_pos_iff.2 hr
    have key : ∀ r ∈ rel, 1 / (all.length : ℚ) ≤ precisionAt rel all r ∧ precisionAt rel all r ≤ 1 := by
      intro r hr'
      have h1 : 1 ≤ reach rel r := List.countP_pos_iff.2 ⟨r, hr', by simp⟩
      have h2 : reach rel r ≤ reach all r := by
        unfold reach
        rw [hp.countP_eq, List.countP_append]
        exact Nat.le_add_right _ _
      have h3 : reach all r ≤ all.length := List.countP_le_length
      have q1 : (1 : ℚ) ≤ reach rel r := by exact_mod_cast h1
      have q2 : (reach rel r : ℚ) ≤ reach all r := by exact_mod_cast h2
      have q3 : (reach all r : ℚ) ≤ all.length := by exact_mod_cast h3
      unfold precisionAt
      exact ⟨div_le_div₀ (by linarith) q1 (by linarith) q3, (div_le_one (by linarith)).2 q2⟩
    have b : ∀ l : List ℚ, (∀ r ∈ l, r ∈ rel) → (l.length : ℚ) * (1 / all.length) ≤ (l.map (precisionAt rel all)).sum ∧ (l.map (precisionAt rel all)).sum ≤ l.length := by
      intro l hl
      induction l with
      | nil => simp
      | cons a l ih =>
        obtain ⟨i1, i2⟩ := ih (fun r hr => hl r (by simp [hr]))
        obtain ⟨k1, k2⟩ := key a (hl a (by simp))
        simp only [List.length_cons, List.map_cons, List.sum_cons]
        push_cast
        constructor
        · rw [add_mul, one_mul]; linarith
        · linarith
    obtain ⟨b1, b2⟩ := b rel (fun _ h => h)
    exact ⟨by rw [le_div_iff₀ hm, mul_comm]; exact b1, by rw [div_le_one hm]; exact b2⟩

theorem sample_bounds {c : Nat} (hc : c ≠ 0) {y : List (List Int)} {s : List (List ℚ)} (h : Scored c y s) {i : Nat} (hi : i < y.length) :
    1 / (c : ℚ) ≤ Spec.samplePrecision y s i ∧ Spec.samplePrecision y s i ≤ 1 := by
  have hs : i < s.length := h.len ▸ hi
  have hl : (s.getD i []).length = c := by rw [List.getD_eq_getElem _ _ hs]; exact h.srow _ (List.getElem_mem hs)
  have := avgPrecision_bounds (row_perm h hi) (by intro e; rw [e] at hl; exact hc hl.symm)
  rwa [hl] at this

/-- **C154**: the label ranking average precision without weights lies between one over the number of labels and 1. -/
theorem C154_lrap {c : Nat} (hc : c ≠ 0) {y : List (List Int)} {s : List (List ℚ)} (h : Scored c y s) :
    ∃ q, lrapScore c y c s none = .ok (some q) ∧ 1 / (c : ℚ) ≤ q ∧ q ≤ 1 := by
  refine ⟨_, C65_lrap h, mean_bounds (by simp) ⟨0, List.length_pos_iff.2 h.ne, one_pos⟩ (fun i hi => sample_bounds hc h hi)⟩

theorem indicator_bounds : ∀ (locs : List Nat) (ind : List ℚ), (∀ v ∈ ind, 0 ≤ v ∧ v ≤ 1) →
    (locs.foldl (fun (ind : List ℚ) loc => ind.set loc 1) ind).length = ind.length ∧ ∀ v ∈ locs.foldl (fun (ind : List ℚ) loc => ind.set loc 1) ind, 0 ≤ v ∧ v ≤ 1
  | [], _, h => ⟨rfl, h⟩
  | k :: locs, ind, h => by
    have := indicator_bounds locs (ind.set k 1) (fun v hv => by
      rcases List.mem_or_eq_of_mem_set hv with hv | rfl
      · exact h v hv
      · norm_num)
    rw [List.length_set] at this
    exact this

theorem unit_sum : ∀ {l : List ℚ}, (∀ v ∈ l, 0 ≤ v ∧ v ≤ 1) → 0 ≤ l.sum ∧ l.sum ≤ l.length
  | [], _ => by simp
  | a :: l, h => by
    obtain ⟨h1, h2⟩ := h a (by simp)
    obtain ⟨i1, i2⟩ := unit_sum (l := l) (fun v hv => h v (by simp [hv]))
    simp only [List.sum_cons, List.length_cons]
    push_cast
    exact ⟨by linarith, by linarith⟩

theorem samplePrecision_bounds (c : Nat) (y : List Int) (s : List ℚ) : 0 ≤ RankMetrics.samplePrecision c y s ∧ RankMetrics.samplePrecision c y s ≤ 1 := by
  unfold RankMetrics.samplePrecision
  simp only
  generalize (List.range y.length).filter (fun j => decide (y.getD j 0 = 1)) = labels
  have hl : ((labels.map (fun a => (findIndex a (selectionSort s)).getD 0)).length : ℚ) = labels.length := by simp
  rw [← hl]
  generalize labels.map (fun a => (findIndex a (selectionSort s)).getD 0) = locs
  obtain ⟨g1, g2⟩ := indicator_bounds locs (List.replicate c 0) (fun v hv => by rw [List.eq_of_mem_replicate hv]; norm_num)
  rw [List.length_replicate] at g1
  generalize locs.foldl (fun (ind : List ℚ) loc => ind.set loc 1) (List.replicate c 0) = ind at g1 g2
  obtain ⟨k1, k2⟩ := unit_sum (l := locs.map (fun loc => (ind.drop loc).sum / ((c - loc : Nat) : ℚ))) (by
    intro v hv
    obtain ⟨loc, _, rfl⟩ := List.mem_map.1 hv
    obtain ⟨d1, d2⟩ := unit_sum (l := ind.drop loc) (fun v hv => g2 v (List.mem_of_mem_drop hv))
    rw [List.length_drop, g1] at d2
    exact ⟨div_nonneg d1 (by positivity), div_le_one_of_le₀ d2 (by positivity)⟩)
  rw [List.length_map] at k2
  exact ⟨div_nonneg k1 (by positivity), div_le_one_of_le₀ k2 (by positivity)⟩

/-- **C154**: the average precision lies between 0 and 1, tied scores or not. -/
theorem C154_average_precision {c : Nat} {y : List (List Int)} {s : List (List ℚ)} (h : Scored c y s) {w : Option (List ℚ)} (hw : FitWeights y.length w) :
    ∃ q, averagePrecision c y c s w = .ok q ∧ 0 ≤ q ∧ q ≤ 1 := by
  have hl : (0 : ℚ) < s.length := by rw [← h.len]; exact_mod_cast List.length_pos_iff.2 h.ne
  unfold averagePrecision
  rw [checkScores_ok h w (weightsFit_iff.2 hw)]
  refine ⟨_, rfl, ?_⟩
  obtain ⟨h1, h2⟩ := unit_sum (l := ((y.zip s).filter (fun p => isMixed c p.1)).map (fun p => RankMetrics.samplePrecision c p.1 p.2)) (by
    intro v hv
    obtain ⟨p, _, rfl⟩ := List.mem_map.1 hv
    exact samplePrecision_bounds _ _ _)
  refine ⟨div_nonneg h1 hl.le, (div_le_one hl).2 (h2.trans ?_)⟩
  rw [List.length_map]
  have : ((y.zip s).filter (fun p => isMixed c p.1)).length ≤ s.length := (List.length_filter_le _ _).trans (by simp)
  exact_mod_cast this

theorem classAuc_bounds {y : List Int} {s : List ℚ} {q : ℚ} (h : classAuc y s = .ok q) : 0 ≤ q ∧ q ≤ 1 := by
  unfold classAuc at h
  simp only at h
  split_ifs at h with h0
  injection h with h
  subst h
  generalize RankMetrics.classScores true y s = P at *
  generalize RankMetrics.classScores false y s = N at *
  have hb : (P.map (fun p => N.countP (fun q => decide (p > q)))).sum ≤ P.length * N.length := by
    clear h0
    induction P with
    | nil => simp
    | cons p P ih =>
      simp only [List.map_cons, List.sum_cons, List.length_cons]
      have : N.countP (fun q => decide (p > q)) ≤ N.length := List.countP_le_length
      nlinarith
  have hp : (0 : ℚ) < (P.length * N.length : Nat) := by exact_mod_cast Nat.pos_of_ne_zero h0
  exact ⟨by positivity, by rw [div_le_one hp]; exact_mod_cast hb⟩

theorem aucSum_bounds {y : List (List Int)} {s : List (List ℚ)} : ∀ {l : List Nat} {q : ℚ}, aucSum y s l = .ok q → 0 ≤ q ∧ q ≤ l.length
  | [], q, h => by
    simp only [aucSum] at h
    injection h with h
    simp [← h]
  | j :: l, q, h => by
    simp only [aucSum] at h
    split at h
    · cases h
    · rename_i a ha
      split at h
      · cases h
      · rename_i b hb
        injection h with h
        obtain ⟨a1, a2⟩ := classAuc_bounds ha
        obtain ⟨b1, b2⟩ := aucSum_bounds hb
        rw [← h, List.length_cons]
        push_cast
        exact ⟨by linarith, by linarith⟩

/-- **C154**: the area averaged over the labels lies between 0 and 1 whenever there is one, tied scores or not. -/
theorem C154_micro_auc {c d : Nat} {y : List (List Int)} {s : List (List ℚ)} {w : Option (List ℚ)} {q : ℚ} (h : microAuc c y d s w = .ok q) :
    0 ≤ q ∧ q ≤ 1 := by
  unfold microAuc at h
  split at h
  · cases h
  · split at h
    · cases h
    · rename_i a ha
      split_ifs at h with hd
      injection h with h
      obtain ⟨h1, h2⟩ := aucSum_bounds ha
      rw [List.length_range] at h2
      have : (0 : ℚ) < d := by exact_mod_cast Nat.pos_of_ne_zero hd
      rw [← h]
      exact ⟨by positivity, by rw [div_le_one this]; exact h2⟩

/-- **C154**: the values of the precision-recall curve lie between 0 and 1. -/
theorem C154_curve {y : List Int} {s : List ℚ} {pos : Option Int} (h : y.length = s.length) (hok : pos ≠ none ∨ BinaryLabels y) (hP : positives pos y s ≠ []) :
    ∃ pr re T, precisionRecallCurve y s pos = .ok (pr, re, T) ∧ (∀ p ∈ pr, 0 ≤ p ∧ p ≤ 1) ∧ ∀ r ∈ re, ∃ v, r = some v ∧ 0 ≤ v ∧ v ≤ 1 := by
  obtain ⟨m, T, _, _, _, _, _, hc⟩ := C67_curve h hok hP
  have sub : (positives pos y s).Sublist s := by
    unfold positives scoresWith
    refine (List.filter_sublist.map _).trans ?_
    rw [List.map_snd_zip h.ge]
  have hn : (0 : ℚ) < (positives pos y s).length := by exact_mod_cast List.length_pos_iff.2 hP
  refine ⟨_, _, T, hc, ?_, ?_⟩
  · intro p hp
    rcases List.mem_append.1 hp with hp | hp
    · obtain ⟨t, _, rfl⟩ := List.mem_map.1 hp
      unfold precisionAt
      refine ⟨by positivity, div_le_one_of_le₀ ?_ (by positivity)⟩
      exact_mod_cast sub.countP_le
    · rw [List.mem_singleton.1 hp]; norm_num
  · intro r hr
    rcases List.mem_append.1 hr with hr | hr
    · obtain ⟨t, _, rfl⟩ := List.mem_map.1 hr
      refine ⟨_, rfl, ?_⟩
      unfold recallAt
      refine ⟨by positivity, div_le_one_of_le₀ ?_ (by positivity)⟩
      exact_mod_cast List.countP_le_length
    · exact ⟨0, List.mem_singleton.1 hr, by norm_num, by norm_num⟩

/-! ## Uncertainties -/
open Alipy.Select Alipy.Consensus

/-- Gibbs' inequality for the entropy. -/
theorem entropy_le {ι : Type} {F : Finset ι} {p : ι → ℝ} (hp : ∀ i ∈ F, 0 < p i) (hs : ∑ i ∈ F, p i = 1) : ∑ i ∈ F, -(p i * Real.log (p i)) ≤ Real.log F.card := by
  have hne : F.Nonempty := by
    rw [Finset.nonempty_iff_ne_empty]
    rintro rfl
    simp at hs
  have hc : (0 : ℝ) < F.card := by exact_mod_cast hne.card_pos
  have key : ∀ i ∈ F, -(p i * Real.log (p i)) ≤ p i * Real.log F.card + (1 / F.card - p i) := by
    intro i hi
    have h := hp i hi
    have := Real.log_le_sub_one_of_pos (show 0 < 1 / (F.card * p i) by positivity)
    rw [Real.log_div one_ne_zero (by positivity), Real.log_one, Real.log_mul hc.ne' h.ne'] at this
    have h2 := mul_le_mul_of_nonneg_left this h.le
    have e : p i * (1 / (F.card * p i) - 1) = 1 / F.card - p i := by field_simp
    rw [e] at h2
    linarith
  refine (Finset.sum_le_sum key).trans ?_
  rw [Finset.sum_add_distrib, ← Finset.sum_mul, hs, Finset.sum_sub_distrib, hs, Finset.sum_const, nsmul_eq_mul]
  field_simp
  simp

/-- **C154**: the entropy score of a prediction lies between -1e-9 and the logarithm of the number of classes. -/
theorem C154_entropy {r : List ℝ} (h : Distribution r) :
    -(1 / 1000000000) ≤ entropyScore Real.log (clip r) ∧ entropyScore Real.log (clip r) ≤ Real.log r.length := by
  have hle : ∀ v ∈ r, v ≤ 1 := fun v hv => h.2 ▸ List.single_le_sum (fun x hx => (h.1 x hx).le) v hv
  rw [clip_pos h.1]
  unfold entropyScore
  rw [sum_map_fin, ← Finset.sum_neg_distrib]
  have hs : ∑ i : Fin r.length, r[i] = 1 := by
    have := sum_map_fin r id
    simp only [List.map_id, id] at this
    rw [← this, h.2]
  constructor
  · have : ∑ i : Fin r.length, -(r[i] * (1 / 1000000000)) = -(1 / 1000000000 : ℝ) := by
      rw [Finset.sum_neg_distrib, ← Finset.sum_mul, hs, one_mul]
    rw [← this]
    refine Finset.sum_le_sum (fun i _ => neg_le_neg ?_)
    have h0 := h.1 r[i] (List.getElem_mem _)
    have h1 := hle r[i] (List.getElem_mem _)
    refine mul_le_mul_of_nonneg_left ?_ h0.le
    have := Real.log_le_sub_one_of_pos (show 0 < r[i] + 1 / 1000000000 by positivity)
    linarith
  · have := entropy_le (F := (Finset.univ : Finset (Fin r.length))) (p := fun i => r[i]) (fun i _ => h.1 _ (List.getElem_mem _)) hs
    rw [Finset.card_univ, Fintype.card_fin] at this
    refine le_trans (Finset.sum_le_sum (fun i _ => neg_le_neg ?_)) this
    have h0 := h.1 r[i] (List.getElem_mem _)
    exact mul_le_mul_of_nonneg_left (Real.log_le_log h0 (by linarith)) h0.le

/-- **C154**: the score of least confidence lies between 0 and 1 - 1/c. -/
theorem C154_least_confident {r : List ℝ} (h : Distribution r) : 0 ≤ leastScore r.length r ∧ leastScore r.length r ≤ 1 - 1 / r.length := by
  have hne : r ≠ [] := by rintro rfl; simpa using h.2
  have hle : ∀ v ∈ r, v ≤ 1 := fun v hv => h.2 ▸ List.single_le_sum (fun x hx => (h.1 x hx).le) v hv
  obtain ⟨t, ht⟩ := top_exists hne
  rw [least_top ht]
  have hn : (0 : ℝ) < r.length := by exact_mod_cast List.length_pos_iff.2 hne
  have hsum : r.sum ≤ r.length * t := by
    have := List.sum_le_card_nsmul r t ht.2
    simpa using this
  rw [h.2] at hsum
  have : 1 / (r.length : ℝ) ≤ t := by rw [div_le_iff₀ hn]; linarith
  exact ⟨by linarith [hle t ht.1], by linarith⟩

/-- **C154**: the margin score lies between -1 and 0. -/
theorem C154_margin {r : List ℝ} (h : Distribution r) (h2 : 2 ≤ r.length) : -1 ≤ marginScore r.length r ∧ marginScore r.length r ≤ 0 := by
  have hle : ∀ v ∈ r, v ≤ 1 := fun v hv => h.2 ▸ List.single_le_sum (fun x hx => (h.1 x hx).le) v hv
  have hne : r ≠ [] := by rintro rfl; simp at h2
  obtain ⟨a, ha⟩ := top_exists hne
  obtain ⟨l, p1, p2⟩ := top_perm ha
  have hl : l ≠ [] := by
    rintro rfl
    rw [p1.length_eq] at h2
    simp at h2
  obtain ⟨b, hb⟩ := top_exists hl
  obtain ⟨rest, q1, q2⟩ := top_perm hb
  rw [kth_margin (p1.trans (q1.cons a)) (p2 b hb.1) q2]
  have h0 := h.1 b (p1.mem_iff.2 (by simp [hb.1]))
  have h1 := hle a ha.1
  have := p2 b hb.1
  exact ⟨by linarith, by linarith⟩

/-- **C154**: the vote entropy lies between -1e-9 and the logarithm of the number of members. -/
theorem C154_vote_entropy {votes : List Int} (hne : votes ≠ []) :
    -(1 / 1000000000) ≤ voteEntropy Real.log votes ∧ voteEntropy Real.log votes ≤ Real.log votes.length := by
  rw [voteEntropy_eq]
  have hm : (1 : ℝ) ≤ votes.length := by exact_mod_cast List.length_pos_iff.2 hne
  have hm0 : (0 : ℝ) < votes.length := by linarith
  have hs : ∑ c ∈ votes.toFinset, (votes.count c : ℝ) / votes.length = 1 := by
    rw [← Finset.sum_div, ← Nat.cast_sum, List.sum_toFinset_count_eq_length, div_self hm0.ne']
  have hpos : ∀ c ∈ votes.toFinset, (0 : ℝ) < (votes.count c : ℝ) / votes.length := by
    intro c hc
    have : (0 : ℝ) < votes.count c := by exact_mod_cast List.count_pos_iff.2 (List.mem_toFinset.1 hc)
    positivity
  constructor
  · have : ∑ c ∈ votes.toFinset, -((votes.count c : ℝ) / votes.length * (1 / 1000000000)) = -(1 / 1000000000 : ℝ) := by
      rw [Finset.sum_neg_distrib, ← Finset.sum_mul, hs, one_mul]
    rw [← this]
    refine Finset.sum_le_sum (fun c hc => neg_le_neg (mul_le_mul_of_nonneg_left ?_ (hpos c hc).le))
    have h1 : (votes.count c : ℝ) ≤ votes.length := by exact_mod_cast List.count_le_length
    have h2 : (0 : ℝ) ≤ votes.count c := by positivity
    have := Real.log_le_sub_one_of_pos (show 0 < ((votes.count c : ℝ) + 1 / 1000000000) / votes.length by positivity)
    have h3 : ((votes.count c : ℝ) + 1 / 1000000000) / votes.length ≤ 1 + 1 / 1000000000 := by
      rw [div_le_iff₀ hm0]
      nlinarith
    linarith
  · have := entropy_le hpos hs
    have hcard : Real.log votes.toFinset.card ≤ Real.log votes.length := by
      refine Real.log_le_log ?_ (by exact_mod_cast List.toFinset_card_le votes)
      have : votes.toFinset.Nonempty := by
        obtain ⟨a, ha⟩ := List.exists_mem_of_ne_nil _ hne
        exact ⟨a, List.mem_toFinset.2 ha⟩
      exact_mod_cast this.card_pos
    refine le_trans (Finset.sum_le_sum (fun c hc => neg_le_neg ?_)) (this.trans hcard)
    refine mul_le_mul_of_nonneg_left (Real.log_le_log (hpos c hc) ?_) (hpos c hc).le
    rw [add_div]
    have : 0 ≤ 1 / 1000000000 / (votes.length : ℝ) := by positivity
    linarith

/-- **C154**: the divergence of the members from their consensus is not negative. -/
theorem C154_kl {labels : Nat} {inst : List (List ℝ)} (hne : inst ≠ []) (h0 : ∀ r ∈ inst, ∀ v ∈ r, 0 ≤ v) : 0 ≤ klScore Real.log labels inst := by
  rw [klScore_eq hne h0]
  refine Finset.sum_nonneg (fun l _ => ?_)
  by_cases hu : Unanimous (voicesAt 0 inst l)
  · exact ((kl_parts hne h0 l).1 hu).ge
  · exact ((kl_parts hne h0 l).2 hu).le

/-- Three samples with two labels. The coverage error is 4/3. -/
example : Scored 2 [[1, 0], [0, 1], [1, 0]] [[3, 1], [2, 2], [5, 4]] ∧ Weights 3 (some [1, 0, 2]) ∧
    (coverageError 2 [[1, 0], [0, 1], [1, 0]] [[3, 1], [2, 2], [5, 4]] none).toOption = some (some (4 / 3)) :=
  ⟨⟨by simp, rfl, by simp, by simp, by simp [ZeroOne]⟩,
    ⟨by simp [FitWeights], by intro i hi; interval_cases i <;> simp [weight], 0, by simp, by simp [weight]⟩, by decide +kernel⟩

/-- A prediction for three classes. -/
example : Distribution [1 / 2, 1 / 4, 1 / 4] := ⟨by simp, by norm_num⟩

/-- The lower bound is not 0: a committee that agrees has a negative vote entropy. -/
theorem C154_negative_violation {votes : List Int} (hne : votes ≠ []) (h : Unanimous votes) : voteEntropy Real.log votes < 0 := score_unanimous hne h

/-- So has a prediction that leaves no doubt. -/
example : entropyScore Real.log (clip [1]) < 0 := by
  rw [clip_pos (by simp)]
  simp only [entropyScore, List.map_cons, List.map_nil, List.sum_cons, List.sum_nil, one_mul, add_zero]
  exact neg_lt_zero.2 (Real.log_pos (by norm_num))

end Alipy.Ranges

import Verif.Spec.Improve
import Verif.Props.Perfect
import Mathlib.Data.List.Sort
/-!
# Better predictions never get a worse score (C127)
-/
namespace Alipy.Improve
open Alipy Alipy.Spec Alipy.RankMetrics Alipy.Perfect

/-! ## Lists of scores -/

theorem scores_improve {pos : Int} : ∀ {y : List Int} {s t : List ℚ}, Improves pos y s t →
    List.Forall₂ (· ≤ ·) (scoresWith (fun c => decide (c = pos)) y s) (scoresWith (fun c => decide (c = pos)) y t) ∧
    List.Forall₂ (fun a b => b ≤ a) (scoresWith (fun c => decide (c ≠ pos)) y s) (scoresWith (fun c => decide (c ≠ pos)) y t)
  | [], _, _, _ => by simp [scoresWith]
  | c :: y, [], t, h => by
    have : t = [] := by simpa using h.1
    subst this
    simp [scoresWith]
  | c :: y, a :: s, [], h => by simp [Improves] at h
  | c :: y, a :: s, b :: t, h => by
    have h0 := h.2 0 c a b rfl rfl rfl
    obtain ⟨i1, i2⟩ := scores_improve (pos := pos) (y := y) (s := s) (t := t) ⟨by simpa using h.1, fun i c a b h1 h2 h3 => h.2 (i + 1) c a b (by simpa using h1) (by simpa using h2) (by simpa using h3)⟩
    unfold scoresWith at i1 i2 ⊢
    by_cases hc : c = pos
    · simp only [List.zip_cons_cons, List.filter_cons, hc, decide_true, if_true, List.map_cons, ne_eq, not_true_eq_false, decide_false, Bool.false_eq_true, if_false]
      exact ⟨.cons (h0.1 hc) i1, i2⟩
    · simp only [List.zip_cons_cons, List.filter_cons, hc, decide_true, if_true, List.map_cons, ne_eq, not_false_eq_true, decide_false, Bool.false_eq_true, if_false]
      exact ⟨i1, .cons (h0.2 hc) i2⟩

theorem sum_mono {α β : Type} {R : α → β → Prop} {f : α → ℚ} {g : β → ℚ} (hfg : ∀ a b, R a b → f a ≤ g b) {l : List α} {l' : List β} (h : List.Forall₂ R l l') :
    (l.map f).sum ≤ (l'.map g).sum := by
  induction h with
  | nil => simp
  | cons h1 _ ih => simp only [List.map_cons, List.sum_cons]; exact add_le_add (hfg _ _ h1) ih

theorem credit_mono {p p' q q' : ℚ} (hp : p ≤ p') (hq : q' ≤ q) : credit p q ≤ credit p' q' := by
  unfold credit
  by_cases h1 : q < p
  · rw [if_pos h1, if_pos (by linarith)]
  · rw [if_neg h1]
    by_cases h2 : q = p
    · rw [if_pos h2]
      by_cases h3 : q' < p'
      · rw [if_pos h3]; norm_num
      · rw [if_neg h3, if_pos (by linarith)]
    · rw [if_neg h2]
      split_ifs <;> norm_num

theorem pairStatistic_mono {P P' N N' : List ℚ} (hP : List.Forall₂ (· ≤ ·) P P') (hN : List.Forall₂ (fun a b => b ≤ a) N N') : pairStatistic P N ≤ pairStatistic P' N' := by
  unfold pairStatistic
  rw [hP.length_eq, hN.length_eq]
  have h0 : 0 ≤ ((P'.length : ℚ) * N'.length) := by positivity
  have h1 : ∀ p p' : ℚ, p ≤ p' → (N.map (fun q => credit p q)).sum ≤ (N'.map (fun q => credit p' q)).sum :=
    fun p p' hp => sum_mono (f := fun q => credit p q) (g := fun q => credit p' q) (fun q q' hq => credit_mono hp hq) hN
  have h2 := sum_mono (f := fun p => (N.map (fun q => credit p q)).sum) (g := fun p => (N'.map (fun q => credit p q)).sum) h1 hP
  exact div_le_div_of_nonneg_right h2 h0

theorem countP_mono {N N' : List ℚ} {r r' : ℚ} (hr : r ≤ r') (hN : List.Forall₂ (fun a b => b ≤ a) N N') : N'.countP (fun s => decide (r' ≤ s)) ≤ N.countP (fun s => decide (r ≤ s)) := by
  induction hN with
  | nil => simp
  | @cons a b l l' h1 _ ih =>
    simp only [List.countP_cons, decide_eq_true_eq]
    by_cases h : r' ≤ b
    · rw [if_pos h, if_pos (show r ≤ a by linarith)]; omega
    · rw [if_neg h]; split_ifs <;> omega

theorem wrongPairs_mono {P P' N N' : List ℚ} (hP : List.Forall₂ (· ≤ ·) P P') (hN : List.Forall₂ (fun a b => b ≤ a) N N') : wrongPairs P' N' ≤ wrongPairs P N := by
  unfold wrongPairs
  rw [hP.length_eq, hN.length_eq]
  have : 0 ≤ ((P'.length : ℚ) * N'.length) := by positivity
  refine div_le_div_of_nonneg_right (sum_mono (R := fun a b => b ≤ a) (fun p p' hp => ?_) hP.flip) this
  exact_mod_cast countP_mono hp hN

theorem reach_up {P P' : List ℚ} {t : ℚ} (hP : List.Forall₂ (· ≤ ·) P P') : reach P t ≤ reach P' t := by
  unfold reach
  exact countP_mono (N := P') (N' := P) le_rfl hP.flip

theorem reach_strict {P : List ℚ} {t u : ℚ} (h : u < t) (hu : u ∈ P) : reach P t < reach P u := by
  induction P with
  | nil => simp at hu
  | cons a l ih =>
    have hmono : reach l t ≤ reach l u := List.countP_mono_left (fun z _ hz => by simp only [decide_eq_true_eq] at hz ⊢; exact h.le.trans hz)
    unfold reach at ih hmono ⊢
    simp only [List.countP_cons, decide_eq_true_eq]
    rcases List.mem_cons.1 hu with rfl | hu
    · rw [if_neg (not_le.2 h), if_pos le_rfl]; omega
    · have := ih hu
      by_cases h1 : t ≤ a
      · rw [if_pos h1, if_pos (h.le.trans h1)]; omega
      · rw [if_neg h1]; split_ifs <;> omega

theorem exists_min : ∀ {P : List ℚ}, P ≠ [] → ∃ m ∈ P, ∀ x ∈ P, m ≤ x
  | [], h => absurd rfl h
  | [a], _ => ⟨a, by simp, by simp⟩
  | a :: b :: l, _ => by
    obtain ⟨m, hm, h⟩ := exists_min (P := b :: l) (by simp)
    by_cases ha : a ≤ m
    · exact ⟨a, by simp, fun x hx => by
        rcases List.mem_cons.1 hx with rfl | hx
        · exact le_rfl
        · exact ha.trans (h x hx)⟩
    · exact ⟨m, List.mem_cons_of_mem _ hm, fun x hx => by
        rcases List.mem_cons.1 hx with rfl | hx
        · exact (not_le.1 ha).le
        · exact h x hx⟩

theorem coverage_mono {P P' N N' A A' : List ℚ} (hA : A.Perm (P ++ N)) (hA' : A'.Perm (P' ++ N')) (hP : List.Forall₂ (· ≤ ·) P P') (hN : List.Forall₂ (fun a b => b ≤ a) N N') {d d' : Nat}
    (h : IsCoverage P A d) (h' : IsCoverage P' A' d') : d' ≤ d := by
  have hl := hP.length_eq
  rcases h'.2 with ⟨h1, h2⟩ | ⟨r', hr', hd'⟩
  · omega
  · obtain ⟨i, hi, rfl⟩ := List.getElem_of_mem hr'
    have hiP : i < P.length := by omega
    obtain ⟨m, hm, hmin⟩ : ∃ m ∈ P, ∀ x ∈ P, m ≤ x := exists_min (List.ne_nil_of_length_pos (by omega))
    have hle : P[i] ≤ P'[i] := (List.forall₂_iff_get.1 hP).2 i hiP hi
    have hmi := hmin _ (List.getElem_mem hiP)
    have hd := h.1 m hm
    rw [reach_rel hA] at hd
    rw [← hd', reach_rel hA']
    have e1 : reach N' P'[i] ≤ reach N m := countP_mono (hmi.trans hle) hN
    have e2 : reach P' P'[i] ≤ P'.length := List.countP_le_length
    have e3 : reach P m = P.length := List.countP_eq_length.2 (fun x hx => by simpa using hmin x hx)
    omega

/-! ## Average precision of distinct scores -/

theorem reach_sorted : ∀ {R : List ℚ}, R.Pairwise (· > ·) → ∀ (j : Nat) (hj : j < R.length), reach R R[j] = j + 1
  | [], _, j, hj => by simp at hj
  | a :: l, h, 0, _ => by
    rw [List.pairwise_cons] at h
    have : l.countP (fun x => decide (a ≤ x)) = 0 := List.countP_eq_zero.2 (fun x hx => by simpa using h.1 x hx)
    simp [reach, this]
  | a :: l, h, j + 1, hj => by
    rw [List.pairwise_cons] at h
    have hj' : j < l.length := by simpa using hj
    have ih := reach_sorted h.2 j hj'
    have : l[j] ≤ a := (h.1 _ (List.getElem_mem hj')).le
    simp only [List.getElem_cons_succ, reach, List.countP_cons, decide_eq_true_eq, if_pos this] at ih ⊢
    omega

theorem sorted_exists {P : List ℚ} (h : P.Nodup) : ∃ R : List ℚ, R.Perm P ∧ R.Pairwise (· > ·) := by
  refine ⟨P.insertionSort (· ≥ ·), List.perm_insertionSort _ _, ?_⟩
  have h1 := List.pairwise_insertionSort (· ≥ ·) P
  have h2 : (P.insertionSort (· ≥ ·)).Nodup := (List.perm_insertionSort _ _).nodup_iff.2 h
  exact (h1.and h2).imp (fun {a b} ⟨x, y⟩ => lt_of_le_of_ne x (Ne.symm y))

/-- The precision sum over the scores in order. -/
theorem avgPrecision_sorted {P N A R : List ℚ} (hA : A.Perm (P ++ N)) (hR : R.Perm P) (hs : R.Pairwise (· > ·)) (hne : P ≠ []) :
    avgPrecision P A = ((List.range P.length).map (fun j => ((j + 1 : Nat) : ℚ) / ((j + 1 + reach N (R.getD j 0) : Nat) : ℚ))).sum / P.length := by
  unfold avgPrecision
  rw [if_neg hne, ← (hR.map (precisionAt P A)).sum_eq]
  congr 2
  apply List.ext_getElem
  · simp [hR.length_eq]
  · intro j h1 h2
    simp only [List.length_map] at h1
    simp only [List.getElem_map, List.getElem_range, precisionAt]
    have e1 : reach P R[j] = j + 1 := by
      rw [← reach_sorted hs j h1]
      exact (hR.countP_eq _).symm
    rw [reach_rel hA, e1, List.getD_eq_getElem _ _ h1]

theorem avgPrecision_mono {P P' N N' A A' : List ℚ} (hA : A.Perm (P ++ N)) (hA' : A'.Perm (P' ++ N')) (hP : List.Forall₂ (· ≤ ·) P P') (hN : List.Forall₂ (fun a b => b ≤ a) N N')
    (hd : P.Nodup) (hd' : P'.Nodup) : avgPrecision P A ≤ avgPrecision P' A' := by
  have hl := hP.length_eq
  by_cases hne : P = []
  · subst hne
    have : P' = [] := List.length_eq_zero_iff.1 hl.symm
    subst this
    simp [avgPrecision]
  have hne' : P' ≠ [] := by rintro rfl; exact hne (List.length_eq_zero_iff.1 hl)
  obtain ⟨R, hR, hs⟩ := sorted_exists hd
  obtain ⟨R', hR', hs'⟩ := sorted_exists hd'
  rw [avgPrecision_sorted hA hR hs hne, avgPrecision_sorted hA' hR' hs' hne', hl]
  refine div_le_div_of_nonneg_right (List.sum_le_sum (fun j hj => ?_)) (by positivity)
  have hj' : j < P'.length := List.mem_range.1 hj
  have h1 : j < R.length := by rw [hR.length_eq]; omega
  have h2 : j < R'.length := by rw [hR'.length_eq]; omega
  rw [List.getD_eq_getElem _ _ h1, List.getD_eq_getElem _ _ h2]
  have hle : R[j] ≤ R'[j] := by
    by_contra hc
    push Not at hc
    have e1 : reach P R[j] = j + 1 := by rw [← reach_sorted hs j h1]; exact (hR.countP_eq _).symm
    have e2 : reach P' R'[j] = j + 1 := by rw [← reach_sorted hs' j h2]; exact (hR'.countP_eq _).symm
    have e3 := reach_up (t := R[j]) hP
    have hmem : R'[j] ∈ P' := hR'.mem_iff.1 (List.getElem_mem h2)
    have e4 : reach P' R[j] < reach P' R'[j] := reach_strict hc hmem
    omega
  have e := countP_mono hle hN
  unfold reach
  refine div_le_div_of_nonneg_left (by positivity) (by positivity) (by exact_mod_cast (by omega))

/-! ## The metrics of scores -/

theorem rows_improve {c : Nat} {y : List (List Int)} {s t : List (List ℚ)} (h : Scored c y s) (hi : ImprovesRows y s t) {i : Nat} (hiy : i < y.length) :
    List.Forall₂ (· ≤ ·) (relScores y s i) (relScores y t i) ∧ List.Forall₂ (fun a b => b ≤ a) (irrScores y s i) (irrScores y t i) := by
  obtain ⟨h1, h2⟩ := scores_improve (hi i hiy)
  refine ⟨h1, ?_⟩
  have hz := h.zo _ (List.getElem_mem hiy)
  unfold irrScores
  rw [List.getD_eq_getElem _ _ hiy] at h2 ⊢
  have : ∀ u : List ℚ, scoresWith (fun c => decide (c = 0)) y[i] u = scoresWith (fun c => decide (c ≠ 1)) y[i] u := fun u =>
    scoresWith_congr u (fun c hc => by rcases hz c hc with h | h <;> simp [h])
  rw [this, this]
  exact h2

/-- **C127**: the area under the ROC curve. If positive examples get no lower and negative examples no higher scores, it does not fall. -/
theorem C127_auc {y : List Int} {s t : List ℚ} {pos : Option Int} (h : y.length = s.length) (hok : pos ≠ none ∨ BinaryLabels y) (hP : positives pos y s ≠ []) (hN : negatives pos y s ≠ [])
    (hi : Improves (pos.getD 1) y s t) : ∃ q q', rocAucScore y s pos = .ok q ∧ rocAucScore y t pos = .ok q' ∧ q ≤ q' := by
  obtain ⟨h1, h2⟩ := scores_improve hi
  have hP' : positives pos y t ≠ [] := fun e => hP (List.length_eq_zero_iff.1 (by
    have := h1.length_eq
    unfold positives at e ⊢
    rw [e] at this
    simpa using this))
  have hN' : negatives pos y t ≠ [] := fun e => hN (List.length_eq_zero_iff.1 (by
    have := h2.length_eq
    unfold negatives at e ⊢
    rw [e] at this
    simpa using this))
  exact ⟨_, _, C38_auc h hok hP hN, C38_auc (h.trans hi.1.symm) hok hP' hN', pairStatistic_mono h1 h2⟩

theorem rankingLoss_mean {c : Nat} (hc : 1 < c) {y : List (List Int)} {s : List (List ℚ)} (h : Scored c y s) {w : Option (List ℚ)} (hw : Weights y.length w) :
    labelRankingLoss c y s w = .ok (some (mean y.length (weight w) (fun i => wrongPairs (relScores y s i) (irrScores y s i)))) := by
  have h2 : AtMostTwoValues y.flatten := by
    have hz : ∀ x ∈ y.flatten, x = 0 ∨ x = 1 := by
      intro x hx
      obtain ⟨r, hr, hxr⟩ := List.mem_flatten.1 hx
      exact h.zo r hr x hxr
    intro x hx z hz' t ht
    have a := hz x hx
    have b := hz z hz'
    have d := hz t ht
    omega
  have key := C40_ranking_loss hc h.ne h.len h.yrow h.srow h2 w hw.fit
  rwa [npAverage_mean y s _ (fun i => wrongPairs (relScores y s i) (irrScores y s i)) h.len (by
    intro i h1 h2
    unfold relScores irrScores
    rw [List.getD_eq_getElem _ _ h1, List.getD_eq_getElem _ _ h2]
    rw [scoresWith_congr (P := fun c => decide (c = 1)) (Q := fun c => decide (c ≠ 0)) s[i] (by
      intro c hc
      rcases h.zo _ (List.getElem_mem h1) c hc with h | h <;> simp [h])]) w (weightsFit_iff.2 hw.fit) (weight_sum hw)] at key

/-- **C127**: the label ranking loss does not rise if relevant labels get no lower and the others no higher scores. -/
theorem C127_ranking_loss {c : Nat} (hc : 1 < c) {y : List (List Int)} {s t : List (List ℚ)} (h : Scored c y s) (h' : Scored c y t) {w : Option (List ℚ)} (hw : Weights y.length w)
    (hi : ImprovesRows y s t) : ∃ q q', labelRankingLoss c y s w = .ok (some q) ∧ labelRankingLoss c y t w = .ok (some q') ∧ q' ≤ q := by
  refine ⟨_, _, rankingLoss_mean hc h hw, rankingLoss_mean hc h' hw, ?_⟩
  refine (mean_le hw.nonneg hw.pos (fun i hiy => ?_)).1
  obtain ⟨h1, h2⟩ := rows_improve h hi hiy
  exact wrongPairs_mono h1 h2

/-- **C127**: nor does the coverage error. -/
theorem C127_coverage {c : Nat} (hc : 1 < c) {y : List (List Int)} {s t : List (List ℚ)} (h : Scored c y s) (h' : Scored c y t) {w : Option (List ℚ)} (hw : Weights y.length w)
    (hi : ImprovesRows y s t) : ∃ q q', coverageError c y s w = .ok (some q) ∧ coverageError c y t w = .ok (some q') ∧ q' ≤ q := by
  choose cov hcov using fun i => C64_exists (relScores y s i) (s.getD i [])
  choose cov' hcov' using fun i => C64_exists (relScores y t i) (t.getD i [])
  refine ⟨_, _, C64_coverage hc h w hw.fit (weight_sum hw) cov (fun i _ => hcov i), C64_coverage hc h' w hw.fit (weight_sum hw) cov' (fun i _ => hcov' i), ?_⟩
  refine (mean_le hw.nonneg hw.pos (fun i hiy => ?_)).1
  obtain ⟨h1, h2⟩ := rows_improve h hi hiy
  exact_mod_cast coverage_mono (row_perm h hiy) (row_perm h' hiy) h1 h2 (hcov i) (hcov' i)

theorem precision_improves {c : Nat} {y : List (List Int)} {s t : List (List ℚ)} (h : Scored c y s) (h' : Scored c y t) (hd : ∀ r ∈ s, r.Nodup) (hd' : ∀ r ∈ t, r.Nodup)
    (hi : ImprovesRows y s t) {i : Nat} (hiy : i < y.length) : samplePrecision y s i ≤ samplePrecision y t i := by
  obtain ⟨h1, h2⟩ := rows_improve h hi hiy
  have nd : ∀ {u : List (List ℚ)} (hu : Scored c y u) (hn : ∀ r ∈ u, r.Nodup), (relScores y u i).Nodup := by
    intro u hu hn
    have hiu : i < u.length := by rw [← hu.len]; exact hiy
    have := hn _ (List.getElem_mem hiu)
    rw [← List.getD_eq_getElem _ [] hiu, (row_perm hu hiy).nodup_iff] at this
    exact this.of_append_left
  exact avgPrecision_mono (row_perm h hiy) (row_perm h' hiy) h1 h2 (nd h hd) (nd h' hd')

/-- **C127**: the ranking average precision does not fall, if no two labels of an example have equal scores, before and after. -/
theorem C127_lrap {c : Nat} {y : List (List Int)} {s t : List (List ℚ)} (h : Scored c y s) (h' : Scored c y t) (hd : ∀ r ∈ s, r.Nodup) (hd' : ∀ r ∈ t, r.Nodup) (hi : ImprovesRows y s t) :
    ∃ q q', lrapScore c y c s none = .ok (some q) ∧ lrapScore c y c t none = .ok (some q') ∧ q ≤ q' :=
  ⟨_, _, C65_lrap h, C65_lrap h', (mean_le (fun _ _ => zero_le_one) ⟨0, List.length_pos_of_ne_nil h.ne, zero_lt_one⟩ (fun _ hiy => precision_improves h h' hd hd' hi hiy)).1⟩

theorem degenerate_iff {c : Nat} {y : List (List Int)} {s t : List (List ℚ)} (h : Scored c y s) (hi : ImprovesRows y s t) {i : Nat} (hiy : i < y.length) : Degenerate c y s i ↔ Degenerate c y t i := by
  unfold Degenerate
  rw [(rows_improve h hi hiy).1.length_eq]

/-- **C127**: the same for `average_precision_score`, if every example has relevant and other labels. -/
theorem C127_average_precision {c : Nat} {y : List (List Int)} {s t : List (List ℚ)} (h : Scored c y s) (h' : Scored c y t) (hd : ∀ r ∈ s, r.Nodup) (hd' : ∀ r ∈ t, r.Nodup)
    (hm : ∀ i < y.length, ¬ Degenerate c y s i) (hi : ImprovesRows y s t) :
    ∃ q q', averagePrecision c y c s none = .ok q ∧ averagePrecision c y c t none = .ok q' ∧ q ≤ q' :=
  ⟨_, _, C65_average_precision_partial h hd hm, C65_average_precision_partial h' hd' (fun i hiy hc => hm i hiy ((degenerate_iff h hi hiy).2 hc)),
    (mean_le (fun _ _ => zero_le_one) ⟨0, List.length_pos_of_ne_nil h.ne, zero_lt_one⟩ (fun _ hiy => precision_improves h h' hd hd' hi hiy)).1⟩

/-- **C127**: `micro_auc_score` does not fall if in every class the positive examples get no lower and the others no higher scores (both kinds in every class, and no ties between them). -/
theorem C127_micro_auc {c : Nat} (hc : c ≠ 0) {y : List (List Int)} {s t : List (List ℚ)} (h : Scored c y s) (h' : Scored c y t) {w : Option (List ℚ)} (hw : FitWeights y.length w)
    (hb : ∀ j < c, Both y s j ∧ NoTies y s j) (hb' : ∀ j < c, Both y t j ∧ NoTies y t j) (hi : ∀ j < c, Improves 1 (classLabels y j) (classScores s j) (classScores t j)) :
    ∃ q q', microAuc c y c s w = .ok q ∧ microAuc c y c t w = .ok q' ∧ q ≤ q' := by
  refine ⟨_, _, C66_macro_partial hc h w hw hb, C66_macro_partial hc h' w hw hb', div_le_div_of_nonneg_right (Finset.sum_le_sum (fun j hj => ?_)) (by positivity)⟩
  obtain ⟨h1, h2⟩ := scores_improve (hi j (Finset.mem_range.1 hj))
  exact pairStatistic_mono h1 h2

/-! ## A tie -/

theorem reach_replicate (n : Nat) (x t : ℚ) : reach (List.replicate n x) t = if t ≤ x then n else 0 := by
  unfold reach
  rw [List.countP_replicate]
  simp

/-- **C127**, violation: with equal scores a better ranking can get a lower average precision. An example has `n` other labels on top, then `m` relevant labels with equal scores, then one more relevant
label; raising that one above the `m` lowers the result. -/
theorem C127_lrap_ties_violation {n m : Nat} (hn : 0 < n) (hm : 2 ≤ m) :
    let y : List (List Int) := [List.replicate n 0 ++ List.replicate m 1 ++ [1]]
    let s : List (List ℚ) := [List.replicate n 3 ++ List.replicate m 1 ++ [0]]
    let t : List (List ℚ) := [List.replicate n 3 ++ List.replicate m 1 ++ [2]]
    ImprovesRows y s t ∧ ∃ q q', lrapScore (n + m + 1) y (n + m + 1) s none = .ok (some q) ∧ lrapScore (n + m + 1) y (n + m + 1) t none = .ok (some q') ∧ q' < q := by
  intro y s t
  have hs : ∀ x : ℚ, Scored (n + m + 1) y [List.replicate n 3 ++ List.replicate m 1 ++ [x]] := by
    intro x
    refine ⟨by simp [y], by simp [y], by simp [y]; omega, by simp; omega, ?_⟩
    intro r hr c hc
    simp only [y, List.mem_singleton] at hr
    subst hr
    simp only [List.mem_append, List.mem_replicate, List.mem_singleton] at hc
    omega
  have hrel : ∀ x : ℚ, relScores y [List.replicate n 3 ++ List.replicate m 1 ++ [x]] 0 = List.replicate m 1 ++ [x] := by
    intro x
    simp [relScores, scoresWith, y, List.zip_append, List.filter_append]
  refine ⟨?_, _, _, C65_lrap (hs 0), C65_lrap (hs 2), ?_⟩
  · intro i hi
    have : i = 0 := by simpa [y] using hi
    subst this
    refine ⟨by simp [s, t], fun j c p q h1 h2 h3 => ?_⟩
    simp only [y, s, t, List.getD_cons_zero] at h1 h2 h3
    by_cases hj : j < n + m
    · have hl1 : j < (List.replicate n (3 : ℚ) ++ List.replicate m 1).length := by simpa using hj
      rw [List.getElem?_append_left hl1] at h2 h3
      rw [h2] at h3
      injection h3 with h3
      subst h3
      exact ⟨fun _ => le_rfl, fun _ => le_rfl⟩
    · have hl0 : (List.replicate n (0 : Int) ++ List.replicate m 1).length ≤ j := by simpa using hj
      have hl1 : (List.replicate n (3 : ℚ) ++ List.replicate m 1).length ≤ j := by simpa using hj
      rw [List.getElem?_append_right hl1] at h2 h3
      rw [List.getElem?_append_right hl0] at h1
      have e2 := List.mem_of_getElem? h2
      have e3 := List.mem_of_getElem? h3
      have e1 := List.mem_of_getElem? h1
      simp only [List.mem_singleton] at e1 e2 e3
      subst e1; subst e2; subst e3
      exact ⟨fun _ => by norm_num, fun h => absurd rfl h⟩
  · have e0 : ∀ f : Nat → ℚ, mean y.length (fun _ => 1) f = f 0 := by intro f; simp [mean, y]
    rw [e0, e0]
    unfold Spec.samplePrecision
    rw [hrel, hrel]
    change avgPrecision _ (List.replicate n 3 ++ List.replicate m 1 ++ [2]) < avgPrecision _ (List.replicate n 3 ++ List.replicate m 1 ++ [0])
    have happ : ∀ (l l' : List ℚ) (u : ℚ), reach (l ++ l') u = reach l u + reach l' u := fun l l' u => List.countP_append
    have h1 : ∀ x u : ℚ, reach [x] u = if u ≤ x then 1 else 0 := fun x u => by simpa using reach_replicate 1 x u
    have p1 : precisionAt (List.replicate m 1 ++ [0]) (List.replicate n 3 ++ List.replicate m 1 ++ [0]) 1 = (m : ℚ) / (n + m) := by
      unfold precisionAt
      simp only [happ, h1, reach_replicate]
      norm_num
    have p2 : precisionAt (List.replicate m 1 ++ [0]) (List.replicate n 3 ++ List.replicate m 1 ++ [0]) 0 = ((m : ℚ) + 1) / (n + m + 1) := by
      unfold precisionAt
      simp only [happ, h1, reach_replicate]
      norm_num
    have p3 : precisionAt (List.replicate m 1 ++ [2]) (List.replicate n 3 ++ List.replicate m 1 ++ [2]) 1 = ((m : ℚ) + 1) / (n + m + 1) := by
      unfold precisionAt
      simp only [happ, h1, reach_replicate]
      norm_num
    have p4 : precisionAt (List.replicate m 1 ++ [2]) (List.replicate n 3 ++ List.replicate m 1 ++ [2]) 2 = 1 / ((n : ℚ) + 1) := by
      unfold precisionAt
      simp only [happ, h1, reach_replicate]
      norm_num
    unfold avgPrecision
    rw [if_neg (by simp), if_neg (by simp)]
    simp only [List.map_append, List.map_replicate, List.map_cons, List.map_nil, List.sum_append, List.sum_replicate, List.sum_cons, List.sum_nil, p1, p2, p3, p4, List.length_append, List.length_replicate,
      List.length_singleton, nsmul_eq_mul, add_zero]
    have hn' : (0 : ℚ) < n := by exact_mod_cast hn
    have hm' : (2 : ℚ) ≤ m := by exact_mod_cast hm
    refine div_lt_div_of_pos_right ?_ (by positivity)
    rw [← sub_pos]
    have : (m : ℚ) * (m / (n + m)) + (m + 1) / (n + m + 1) - (m * ((m + 1) / (n + m + 1)) + 1 / (n + 1)) = m * n * (m - 1) / ((n + m) * (n + m + 1) * (n + 1)) := by
      field_simp
      ring
    rw [this]
    have : (0 : ℚ) < m - 1 := by linarith
    positivity

/-! ## The metrics of predicted labels -/

theorem fraction_mono {n : Nat} {w : Nat → ℚ} {P Q : Nat → Prop} [DecidablePred P] [DecidablePred Q] (hw : ∀ i < n, 0 ≤ w i) (h : ∀ i < n, P i → Q i) : fraction n w P ≤ fraction n w Q := by
  unfold fraction
  refine div_le_div_of_nonneg_right (Finset.sum_le_sum (fun i hi => ?_)) (Finset.sum_nonneg (fun i hi => hw i (Finset.mem_range.1 hi)))
  have hi' := Finset.mem_range.1 hi
  by_cases hp : P i
  · simp [hp, h i hi' hp]
  · rw [if_neg hp]
    split_ifs
    · exact hw i hi'
    · exact le_rfl

/-- **C127**: predictions that are right wherever others are have at least their accuracy and at most their losses. -/
theorem C127_labels {a b b' : List Int} (h : a.length = b.length) (h' : a.length = b'.length) (hne : a ≠ []) (hc : Corrects a b b') :
    (∀ w, Weights a.length w → ∃ q q', accuracyScore (.vec a) (.vec b) w = .ok (some q) ∧ accuracyScore (.vec a) (.vec b') w = .ok (some q') ∧ q ≤ q' ∧
      zeroOneLoss (.vec a) (.vec b) true w = .ok (some (1 - q)) ∧ zeroOneLoss (.vec a) (.vec b') true w = .ok (some (1 - q'))) ∧
    ∃ q q', hammingLoss (.vec a) (.vec b) = .ok (some q) ∧ hammingLoss (.vec a) (.vec b') = .ok (some q') ∧ q' ≤ q := by
  refine ⟨fun w hw => ?_, _, _, C39_hamming_vectors h hne, C39_hamming_vectors h' hne, fraction_mono (fun _ _ => zero_le_one) (fun i _ hn he => hn (hc i he))⟩
  have e1 := C37_accuracy_vectors h w hw.fit (weight_sum hw)
  have e2 := C37_accuracy_vectors h' w hw.fit (weight_sum hw)
  exact ⟨_, _, e1, e2, fraction_mono hw.nonneg (fun i _ => hc i), C37_zero_one_loss _ _ _ e1, C37_zero_one_loss _ _ _ e2⟩

theorem flatten_entry {α : Type} {c : Nat} (hc : 0 < c) : ∀ (q : List (List α)), (∀ r ∈ q, r.length = c) → ∀ p,
    q.flatten[p]? = (q[p / c]?).bind (fun r => r[p % c]?)
  | [], _, p => by simp
  | r :: q, h, p => by
    have hr := h r (by simp)
    rw [List.flatten_cons, List.getElem?_append]
    by_cases hp : p < r.length
    · rw [if_pos hp]
      have : p / c = 0 := Nat.div_eq_of_lt (by omega)
      rw [this, Nat.mod_eq_of_lt (by omega)]
      simp
    · rw [if_neg hp, flatten_entry hc q (fun x hx => h x (by simp [hx])) (p - r.length), hr]
      have hpc : c ≤ p := by omega
      have h1 : p / c = (p - c) / c + 1 := by
        rw [Nat.div_eq p c, if_pos ⟨hc, hpc⟩]
      have h2 : p % c = (p - c) % c := Nat.mod_eq_sub_mod hpc
      rw [h1, h2]
      simp

/-- **C127**: label matrices, the accuracy by rows and the Hamming loss by cells. -/
theorem C127_label_rows {c : Nat} (hc : 1 < c) {a b b' : List (List Int)} (hne : a ≠ []) (h : a.length = b.length) (h' : a.length = b'.length) (ha : Rect c a) (hb : Rect c b) (hb' : Rect c b')
    (ha2 : AtMostTwoValues a.flatten) (hb2 : AtMostTwoValues b.flatten) (hb2' : AtMostTwoValues b'.flatten) (hcor : ∀ i < a.length, Corrects (a.getD i []) (b.getD i []) (b'.getD i [])) :
    (∀ w, Weights a.length w → ∃ q q', accuracyScore (.mat c a) (.mat c b) w = .ok (some q) ∧ accuracyScore (.mat c a) (.mat c b') w = .ok (some q') ∧ q ≤ q') ∧
    ∃ q q', hammingLoss (.mat c a) (.mat c b) = .ok (some q) ∧ hammingLoss (.mat c a) (.mat c b') = .ok (some q') ∧ q' ≤ q := by
  refine ⟨fun w hw => ⟨_, _, C37_accuracy_rows hc h ha2 hb2 w hw.fit (weight_sum hw), C37_accuracy_rows hc h' ha2 hb2' w hw.fit (weight_sum hw), fraction_mono hw.nonneg (fun i hi he => ?_)⟩, _, _,
    C39_hamming_matrices_partial hc hne h ha hb ha2 hb2, C39_hamming_matrices_partial hc hne h' ha hb' ha2 hb2', fraction_mono (fun _ _ => zero_le_one) (fun p hp hn he => hn ?_)⟩
  · have hib : i < b.length := by omega
    have hib' : i < b'.length := by omega
    have := hcor i hi
    rw [List.getElem?_eq_getElem hi, List.getElem?_eq_getElem hib] at he
    rw [List.getElem?_eq_getElem hi, List.getElem?_eq_getElem hib']
    rw [List.getD_eq_getElem _ _ hi, List.getD_eq_getElem _ _ hib, List.getD_eq_getElem _ _ hib'] at this
    injection he with he
    rw [List.ext_getElem? (fun j => this j (by rw [he]))]
  · have hc0 : 0 < c := by omega
    have hi : p / c < a.length := by rw [Nat.div_lt_iff_lt_mul hc0]; exact hp
    have hib : p / c < b.length := by omega
    have hib' : p / c < b'.length := by omega
    have := hcor (p / c) hi
    rw [flatten_entry hc0 a ha, flatten_entry hc0 b hb, List.getElem?_eq_getElem hi, List.getElem?_eq_getElem hib, Option.bind_some, Option.bind_some] at he
    rw [flatten_entry hc0 a ha, flatten_entry hc0 b' hb', List.getElem?_eq_getElem hi, List.getElem?_eq_getElem hib', Option.bind_some, Option.bind_some]
    rw [List.getD_eq_getElem _ _ hi, List.getD_eq_getElem _ _ hib, List.getD_eq_getElem _ _ hib'] at this
    exact this _ he

/-! ## Cases -/

example : Improves 1 [1, 0, 1] [1/2, 1/3, 1/4] [1/2, 1/5, 1/3] := by
  refine ⟨rfl, fun i c a b h1 h2 h3 => ?_⟩
  rcases i with _ | _ | _ | i <;> simp at h1 h2 h3 <;> subst h1 <;> subst h2 <;> subst h3 <;> norm_num

example : ∃ q q', rocAucScore [1, 0, 1] [1/2, 1/3, 1/4] none = .ok q ∧ rocAucScore [1, 0, 1] [1/2, 1/5, 1/3] none = .ok q' ∧ q ≤ q' := by
  refine C127_auc rfl (.inr (by decide)) (by simp [positives, scoresWith]) (by simp [negatives, scoresWith]) ⟨rfl, fun i c a b h1 h2 h3 => ?_⟩
  rcases i with _ | _ | _ | i <;> simp at h1 h2 h3 <;> subst h1 <;> subst h2 <;> subst h3 <;> norm_num

example : Corrects [1, 2, 3] [1, 1, 1] [1, 2, 2] := by
  intro i
  rcases i with _ | _ | _ | i <;> simp

end Alipy.Improve

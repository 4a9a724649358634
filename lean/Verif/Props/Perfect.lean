import Verif.Spec.Perfect
import Verif.Props.RankingMetrics
import Verif.Props.Ranking
import Verif.Props.Metrics
import Mathlib.Algebra.Order.BigOperators.Group.Finset
/-!
# The metrics agree on which predictions are perfect (C122)
-/
namespace Alipy.Perfect
open Alipy Alipy.Spec Alipy.RankMetrics

/-! ## Means and sums -/

theorem mean_le {n : Nat} {w f g : Nat → ℚ} (hw : ∀ i < n, 0 ≤ w i) (hp : ∃ i < n, 0 < w i) (h : ∀ i < n, f i ≤ g i) :
    mean n w f ≤ mean n w g ∧ (mean n w f = mean n w g ↔ ∀ i < n, 0 < w i → f i = g i) := by
  have hs : 0 < ∑ i ∈ Finset.range n, w i := by
    obtain ⟨i, hi, h0⟩ := hp
    exact Finset.sum_pos' (fun j hj => hw j (Finset.mem_range.1 hj)) ⟨i, Finset.mem_range.2 hi, h0⟩
  have hle : ∀ i ∈ Finset.range n, w i * f i ≤ w i * g i := fun i hi =>
    mul_le_mul_of_nonneg_left (h i (Finset.mem_range.1 hi)) (hw i (Finset.mem_range.1 hi))
  unfold mean
  refine ⟨(div_le_div_iff_of_pos_right hs).2 (Finset.sum_le_sum hle), ?_⟩
  rw [div_left_inj' hs.ne', Finset.sum_eq_sum_iff_of_le hle]
  constructor
  · intro e i hi h0
    exact mul_left_cancel₀ h0.ne' (e i (Finset.mem_range.2 hi))
  · intro e i hi
    rcases (hw i (Finset.mem_range.1 hi)).lt_or_eq with h0 | h0
    · rw [e i (Finset.mem_range.1 hi) h0]
    · rw [← h0, zero_mul, zero_mul]

theorem mean_const {n : Nat} {w : Nat → ℚ} (hw : ∀ i < n, 0 ≤ w i) (hp : ∃ i < n, 0 < w i) (k : ℚ) : mean n w (fun _ => k) = k := by
  have hs : 0 < ∑ i ∈ Finset.range n, w i := by
    obtain ⟨i, hi, h0⟩ := hp
    exact Finset.sum_pos' (fun j hj => hw j (Finset.mem_range.1 hj)) ⟨i, Finset.mem_range.2 hi, h0⟩
  unfold mean
  rw [← Finset.sum_mul, mul_div_assoc, mul_div_cancel₀ _ hs.ne']

theorem weight_sum {n : Nat} {w : Option (List ℚ)} (h : Weights n w) : ∑ i ∈ Finset.range n, weight w i ≠ 0 := by
  obtain ⟨i, hi, h0⟩ := h.pos
  exact (Finset.sum_pos' (fun j hj => h.nonneg j (Finset.mem_range.1 hj)) ⟨i, Finset.mem_range.2 hi, h0⟩).ne'

/-- Terms of at most 1 (at least 0). -/
theorem sum_le_length {α : Type} (f : α → ℚ) : ∀ l : List α, (∀ x ∈ l, f x ≤ 1) → (l.map f).sum ≤ l.length ∧ ((l.map f).sum = l.length ↔ ∀ x ∈ l, f x = 1)
  | [], _ => by simp
  | x :: l, h => by
    obtain ⟨h1, h2⟩ := sum_le_length f l (fun y hy => h y (List.mem_cons_of_mem _ hy))
    have hx := h x List.mem_cons_self
    simp only [List.map_cons, List.sum_cons, List.length_cons, Nat.cast_add, Nat.cast_one, List.forall_mem_cons]
    refine ⟨by linarith, ?_⟩
    constructor
    · intro e
      have : f x = 1 := by linarith
      exact ⟨this, h2.1 (by linarith)⟩
    · rintro ⟨e1, e2⟩
      rw [e1, h2.2 e2, add_comm]

theorem sum_nonneg_zero {α : Type} (f : α → ℚ) : ∀ l : List α, (∀ x ∈ l, 0 ≤ f x) → 0 ≤ (l.map f).sum ∧ ((l.map f).sum = 0 ↔ ∀ x ∈ l, f x = 0)
  | [], _ => by simp
  | x :: l, h => by
    obtain ⟨h1, h2⟩ := sum_nonneg_zero f l (fun y hy => h y (List.mem_cons_of_mem _ hy))
    have hx := h x List.mem_cons_self
    simp only [List.map_cons, List.sum_cons, List.forall_mem_cons]
    refine ⟨by linarith, ?_⟩
    constructor
    · intro e
      exact ⟨by linarith, h2.1 (by linarith)⟩
    · rintro ⟨e1, e2⟩
      rw [e1, h2.2 e2, add_zero]

/-! ## One sample -/

theorem wrongPairs_zero (rel irr : List ℚ) : wrongPairs rel irr = 0 ↔ Above rel irr := by
  unfold wrongPairs Above
  rw [div_eq_zero_iff, (sum_nonneg_zero (fun r => ((irr.countP (fun s => decide (r ≤ s)) : Nat) : ℚ)) rel (fun _ _ => Nat.cast_nonneg _)).2, mul_eq_zero]
  simp only [Nat.cast_eq_zero, List.countP_eq_zero, decide_eq_true_eq, not_le, List.length_eq_zero_iff]
  constructor
  · rintro (h | rfl | rfl)
    · exact h
    · simp
    · simp
  · exact Or.inl

theorem reach_rel {rel irr all : List ℚ} (hp : all.Perm (rel ++ irr)) (t : ℚ) : reach all t = reach rel t + reach irr t := by
  unfold reach
  rw [hp.countP_eq, List.countP_append]

theorem reach_pos {rel : List ℚ} {r : ℚ} (h : r ∈ rel) : 0 < reach rel r := List.countP_pos_iff.2 ⟨r, h, by simp⟩

theorem precision_range {rel irr all : List ℚ} (hp : all.Perm (rel ++ irr)) {r : ℚ} (h : r ∈ rel) :
    0 < precisionAt rel all r ∧ precisionAt rel all r ≤ 1 ∧ (precisionAt rel all r = 1 ↔ ∀ q ∈ irr, q < r) := by
  have e := reach_rel hp r
  have h0 := reach_pos h
  have ha : (0 : ℚ) < reach all r := by exact_mod_cast (by omega : 0 < reach all r)
  have hr : (0 : ℚ) < reach rel r := by exact_mod_cast h0
  unfold precisionAt
  refine ⟨div_pos hr ha, (div_le_one ha).2 (by exact_mod_cast (by omega : reach rel r ≤ reach all r)), ?_⟩
  rw [div_eq_one_iff_eq ha.ne', Nat.cast_inj, e]
  have : reach rel r = reach rel r + reach irr r ↔ reach irr r = 0 := by omega
  rw [this]
  unfold reach
  rw [List.countP_eq_zero]
  simp

theorem avgPrecision_range {rel irr all : List ℚ} (hp : all.Perm (rel ++ irr)) :
    0 < avgPrecision rel all ∧ avgPrecision rel all ≤ 1 ∧ (avgPrecision rel all = 1 ↔ Above rel irr) := by
  unfold avgPrecision
  by_cases h : rel = []
  · subst h
    simp [Above]
  · rw [if_neg h]
    have hl : (0 : ℚ) < rel.length := by exact_mod_cast List.length_pos_of_ne_nil h
    obtain ⟨h1, h2⟩ := sum_le_length (precisionAt rel all) rel (fun r hr => (precision_range hp hr).2.1)
    refine ⟨div_pos ?_ hl, (div_le_one hl).2 h1, ?_⟩
    · obtain ⟨h3, h4⟩ := sum_nonneg_zero (precisionAt rel all) rel (fun r hr => (precision_range hp hr).1.le)
      rcases h3.lt_or_eq with h5 | h5
      · exact h5
      · obtain ⟨r, hr⟩ := List.exists_mem_of_ne_nil _ h
        exact absurd (h4.1 h5.symm r hr) (precision_range hp hr).1.ne'
    · rw [div_eq_one_iff_eq hl.ne', h2]
      unfold Above
      exact forall₂_congr (fun r hr => (precision_range hp hr).2.2)

/-- The scores of a sample are those of its relevant and of its other labels. -/
theorem row_perm {c : Nat} {y : List (List Int)} {s : List (List ℚ)} (h : Scored c y s) {i : Nat} (hi : i < y.length) :
    (s.getD i []).Perm (relScores y s i ++ irrScores y s i) := by
  have hi' : i < s.length := by rw [← h.len]; exact hi
  unfold relScores irrScores
  rw [List.getD_eq_getElem _ _ hi, List.getD_eq_getElem _ _ hi']
  have hrow : y[i].length = s[i].length := by rw [h.yrow _ (List.getElem_mem hi), h.srow _ (List.getElem_mem hi')]
  have hz := h.zo _ (List.getElem_mem hi)
  generalize y[i] = a at hrow hz
  generalize s[i] = b at hrow
  unfold scoresWith
  rw [← List.map_append]
  have e : (a.zip b).map Prod.snd = b := List.map_snd_zip hrow.ge
  conv_lhs => rw [← e]
  refine List.Perm.map _ ?_
  have : (a.zip b).filter (fun p => decide (p.1 = 0)) = (a.zip b).filter (fun p => !decide (p.1 = 1)) := by
    refine List.filter_congr (fun p hp => ?_)
    rcases hz p.1 (List.of_mem_zip hp).1 with h | h <;> simp [h]
  rw [this]
  exact (List.filter_append_perm _ _).symm

theorem relScores_le {c : Nat} {y : List (List Int)} {s : List (List ℚ)} (h : Scored c y s) {i : Nat} (hi : i < y.length) :
    (s.getD i []).length = c := by
  have hi' : i < s.length := by rw [← h.len]; exact hi
  rw [List.getD_eq_getElem _ _ hi']
  exact h.srow _ (List.getElem_mem hi')

/-! ## The metrics -/

/-- **C122.** The ranking loss is between 0 and 1, and 0 exactly for perfect predictions. -/
theorem C122_ranking_loss {c : Nat} (hc : 1 < c) {y : List (List Int)} {s : List (List ℚ)} (h : Scored c y s) {w : Option (List ℚ)} (hw : Weights y.length w) :
    ∃ q, labelRankingLoss c y s w = .ok (some q) ∧ 0 ≤ q ∧ q ≤ 1 ∧ (q = 0 ↔ Perfect w y s) := by
  have h2 : AtMostTwoValues y.flatten := by
    have hz : ∀ x ∈ y.flatten, x = 0 ∨ x = 1 := by
      intro x hx
      obtain ⟨r, hr, hxr⟩ := List.mem_flatten.1 hx
      exact h.zo r hr x hxr
    intro x hx z hz' t ht
    have a := hz x hx
    have b := hz z hz'
    have d := hz t ht
    omega
  have key := C40_ranking_loss hc h.ne h.len h.yrow h.srow h2 w hw.fit
  rw [npAverage_mean y s _ (fun i => wrongPairs (relScores y s i) (irrScores y s i)) h.len (by
    intro i h1 h2
    unfold relScores irrScores
    rw [List.getD_eq_getElem _ _ h1, List.getD_eq_getElem _ _ h2]
    rw [scoresWith_congr (P := fun c => decide (c = 1)) (Q := fun c => decide (c ≠ 0)) s[i] (by
      intro c hc
      rcases h.zo _ (List.getElem_mem h1) c hc with h | h <;> simp [h])]) w (weightsFit_iff.2 hw.fit) (weight_sum hw)] at key
  have b1 := mean_le (f := fun _ => 0) hw.nonneg hw.pos (fun i _ => (C40_range (relScores y s i) (irrScores y s i)).1)
  have b2 := mean_le (g := fun _ => 1) hw.nonneg hw.pos (fun i _ => (C40_range (relScores y s i) (irrScores y s i)).2)
  rw [mean_const hw.nonneg hw.pos] at b1 b2
  refine ⟨_, key, b1.1, b2.1, ?_⟩
  rw [eq_comm, b1.2]
  unfold Perfect
  exact forall₂_congr (fun i hi => forall_congr' (fun _ => by rw [eq_comm, wrongPairs_zero]))

/-- **C122.** The coverage error is between the mean number of relevant labels and the number of labels, and the former exactly for perfect
predictions. -/
theorem C122_coverage {c : Nat} (hc : 1 < c) {y : List (List Int)} {s : List (List ℚ)} (h : Scored c y s) {w : Option (List ℚ)} (hw : Weights y.length w) :
    ∃ q, coverageError c y s w = .ok (some q) ∧ mean y.length (weight w) (fun i => ((relScores y s i).length : ℚ)) ≤ q ∧ q ≤ c ∧
      (q = mean y.length (weight w) (fun i => ((relScores y s i).length : ℚ)) ↔ Perfect w y s) := by
  choose cov hcov using fun i => C64_exists (relScores y s i) (s.getD i [])
  have key := C64_coverage hc h w hw.fit (weight_sum hw) cov (fun i _ => hcov i)
  have hb := fun i (hi : i < y.length) => C64_best (row_perm h hi) (hcov i)
  have b1 := mean_le (f := fun i => ((relScores y s i).length : ℚ)) (g := fun i => (cov i : ℚ)) hw.nonneg hw.pos (fun i hi => by exact_mod_cast (hb i hi).1)
  have b2 := mean_le (f := fun i => (cov i : ℚ)) (g := fun _ => (c : ℚ)) hw.nonneg hw.pos (fun i hi => by
    have : cov i ≤ c := by
      rcases (hcov i).2 with ⟨_, e⟩ | ⟨r, _, e⟩
      · omega
      · rw [← e, ← relScores_le h hi]
        exact List.countP_le_length
    exact_mod_cast this)
  rw [mean_const hw.nonneg hw.pos] at b2
  refine ⟨_, key, b1.1, b2.1, ?_⟩
  rw [eq_comm, b1.2]
  unfold Perfect
  refine forall₂_congr (fun i hi => forall_congr' (fun _ => ?_))
  rw [Nat.cast_inj, eq_comm, (hb i hi).2]
  rfl

/-- **C122.** The ranking average precision is positive and at most 1, and 1 exactly for perfect predictions. -/
theorem C122_lrap {c : Nat} {y : List (List Int)} {s : List (List ℚ)} (h : Scored c y s) :
    ∃ q, lrapScore c y c s none = .ok (some q) ∧ 0 < q ∧ q ≤ 1 ∧ (q = 1 ↔ Perfect none y s) := by
  have hn : ∀ i < y.length, (0 : ℚ) ≤ 1 := fun _ _ => zero_le_one
  have hp : ∃ i < y.length, (0 : ℚ) < 1 := ⟨0, List.length_pos_of_ne_nil h.ne, zero_lt_one⟩
  have hr := fun i (hi : i < y.length) => avgPrecision_range (row_perm h hi)
  have b1 := mean_le (n := y.length) (w := fun _ => 1) (f := fun _ => 0) (g := samplePrecision y s) hn hp (fun i hi => (hr i hi).1.le)
  have b2 := mean_le (n := y.length) (w := fun _ => 1) (f := samplePrecision y s) (g := fun _ => 1) hn hp (fun i hi => (hr i hi).2.1)
  rw [mean_const hn hp] at b1 b2
  refine ⟨_, C65_lrap h, lt_of_le_of_ne b1.1 ?_, b2.1, ?_⟩
  · intro e
    obtain ⟨i, hi, h0⟩ := hp
    exact (hr i hi).1.ne (b1.2.1 e i hi h0)
  · rw [b2.2]
    unfold Perfect
    exact forall₂_congr (fun i hi => forall_congr' (fun _ => (hr i hi).2.2))

/-- **C122.** So is the other average precision, if no scores of a sample are equal and every sample has a relevant and another label. -/
theorem C122_average_precision {c : Nat} {y : List (List Int)} {s : List (List ℚ)} (h : Scored c y s) (hd : ∀ r ∈ s, r.Nodup)
    (hm : ∀ i < y.length, ¬ Degenerate c y s i) : ∃ q, averagePrecision c y c s none = .ok q ∧ 0 < q ∧ q ≤ 1 ∧ (q = 1 ↔ Perfect none y s) := by
  obtain ⟨q, h1, h2, h3, h4⟩ := C122_lrap h
  refine ⟨q, ?_, h2, h3, h4⟩
  rw [C65_average_precision_partial h hd hm]
  rw [C65_lrap h] at h1
  simpa using h1

/-- **C122.** Hence the metrics agree: none of them calls a prediction perfect that another does not. -/
theorem C122_agree {c : Nat} (hc : 1 < c) {y : List (List Int)} {s : List (List ℚ)} (h : Scored c y s) :
    (labelRankingLoss c y s none = .ok (some 0) ↔ lrapScore c y c s none = .ok (some 1)) ∧
    (labelRankingLoss c y s none = .ok (some 0) ↔
      coverageError c y s none = .ok (some (mean y.length (fun _ => 1) (fun i => ((relScores y s i).length : ℚ))))) := by
  have hw : Weights y.length none := ⟨by intro l hl; simp at hl, fun _ _ => zero_le_one, ⟨0, List.length_pos_of_ne_nil h.ne, zero_lt_one⟩⟩
  obtain ⟨a, a1, -, -, a2⟩ := C122_ranking_loss hc h hw
  obtain ⟨b, b1, -, -, b2⟩ := C122_coverage hc h hw
  obtain ⟨d, d1, -, -, d2⟩ := C122_lrap h
  rw [a1, b1, d1]
  simp only [Except.ok.injEq, Option.some.injEq]
  exact ⟨a2.trans d2.symm, a2.trans b2.symm⟩

/-! ## Area under the curve -/

theorem credit_one (p q : ℚ) : credit p q = 1 ↔ q < p := by
  unfold credit; split_ifs with h1 h2 <;> simp [h1] <;> norm_num

theorem credit_neg (p q : ℚ) : credit (-p) (-q) = 1 - credit p q := by
  unfold credit
  rcases lt_trichotomy q p with h | h | h
  · rw [if_neg (by simpa using h.le), if_neg (by simpa using h.ne), if_pos h]; norm_num
  · subst h; simp; norm_num
  · rw [if_pos (by simpa using h), if_neg h.not_gt, if_neg h.ne']; norm_num

theorem credit_range (p q : ℚ) : 0 ≤ credit p q ∧ credit p q ≤ 1 := by
  unfold credit; split_ifs <;> norm_num

theorem pairStatistic_one {P N : List ℚ} (hP : P ≠ []) (hN : N ≠ []) : pairStatistic P N = 1 ↔ Above P N := by
  have hl : (0 : ℚ) < P.length * N.length := by
    have := Nat.mul_pos (List.length_pos_of_ne_nil hP) (List.length_pos_of_ne_nil hN)
    exact_mod_cast this
  have hn : (0 : ℚ) < N.length := by exact_mod_cast List.length_pos_of_ne_nil hN
  have h1 := fun p => sum_le_length (credit p) N (fun q _ => (credit_range p q).2)
  have h2 := sum_le_length (fun p => (N.map (credit p)).sum / N.length) P (fun p _ => (div_le_one hn).2 (h1 p).1)
  unfold pairStatistic Above
  rw [div_eq_one_iff_eq hl.ne']
  have e : (P.map (fun p => (N.map (credit p)).sum / N.length)).sum = (P.map (fun p => (N.map (credit p)).sum)).sum / N.length := by
    rw [div_eq_mul_inv, ← List.sum_map_mul_right]
    simp [div_eq_mul_inv]
  rw [e, div_eq_iff hn.ne'] at h2
  rw [h2.2]
  refine forall₂_congr (fun p _ => ?_)
  rw [div_eq_one_iff_eq hn.ne', (h1 p).2]
  exact forall₂_congr (fun q _ => credit_one p q)

theorem pairStatistic_neg {P N : List ℚ} (hP : P ≠ []) (hN : N ≠ []) : pairStatistic (P.map (fun x => -x)) (N.map (fun x => -x)) = 1 - pairStatistic P N := by
  have hl : (0 : ℚ) < P.length * N.length := by
    have := Nat.mul_pos (List.length_pos_of_ne_nil hP) (List.length_pos_of_ne_nil hN)
    exact_mod_cast this
  unfold pairStatistic
  simp only [List.map_map, Function.comp_def, credit_neg, List.length_map]
  have h1 : ∀ (f : ℚ → ℚ) (l : List ℚ), (l.map (fun x => 1 - f x)).sum = l.length - (l.map f).sum := by
    intro f l
    induction l with
    | nil => simp
    | cons x l ih => simp [ih]; ring
  have h2 : ∀ (f : ℚ → ℚ) (k : ℚ) (l : List ℚ), (l.map (fun x => k - f x)).sum = l.length * k - (l.map f).sum := by
    intro f k l
    induction l with
    | nil => simp
    | cons x l ih => simp [ih]; ring
  simp only [h1]
  rw [h2 (fun p => (N.map (fun q => credit p q)).sum), sub_div, div_self hl.ne']

theorem scoresWith_neg (P : Int → Bool) (y : List Int) (s : List ℚ) : scoresWith P y (s.map (fun x => -x)) = (scoresWith P y s).map (fun x => -x) := by
  unfold scoresWith
  rw [List.zip_map_right, List.filter_map, List.map_map, List.map_map]
  rfl

/-- **C122.** The area under the curve is between 0 and 1, 1 exactly if every positive is scored above every negative, 0 exactly if every negative is
scored above every positive, and turning the order of the scores round takes it to one minus it. -/
theorem C122_auc {y : List Int} {s : List ℚ} {pos : Option Int} (h : y.length = s.length) (hok : pos ≠ none ∨ BinaryLabels y) (hP : positives pos y s ≠ [])
    (hN : negatives pos y s ≠ []) : ∃ q, rocAucScore y s pos = .ok q ∧ 0 ≤ q ∧ q ≤ 1 ∧ (q = 1 ↔ Above (positives pos y s) (negatives pos y s)) ∧
      (q = 0 ↔ Above (negatives pos y s) (positives pos y s)) ∧ rocAucScore y (s.map (fun x => -x)) pos = .ok (1 - q) := by
  have hr := C38_range (positives pos y s) (negatives pos y s)
  have e1 : positives pos y (s.map (fun x => -x)) = (positives pos y s).map (fun x => -x) := scoresWith_neg _ y s
  have e2 : negatives pos y (s.map (fun x => -x)) = (negatives pos y s).map (fun x => -x) := scoresWith_neg _ y s
  refine ⟨_, C38_auc h hok hP hN, hr.1, hr.2, pairStatistic_one hP hN, ?_, ?_⟩
  · have := pairStatistic_one (P := (positives pos y s).map (fun x => -x)) (N := (negatives pos y s).map (fun x => -x)) (by simpa using hP) (by simpa using hN)
    rw [pairStatistic_neg hP hN] at this
    have e : pairStatistic (positives pos y s) (negatives pos y s) = 0 ↔ 1 - pairStatistic (positives pos y s) (negatives pos y s) = 1 := by
      constructor <;> intro h <;> linarith
    rw [e, this]
    unfold Above
    simp only [List.forall_mem_map, neg_lt_neg_iff]
    exact ⟨fun h q hq p hp => h p hp q hq, fun h p hp q hq => h q hq p hp⟩
  · rw [C38_auc (by simpa using h) hok (by rw [e1]; simpa using hP) (by rw [e2]; simpa using hN), e1, e2, pairStatistic_neg hP hN]

/-! ## Predicted labels -/

/-- The number of positions that differ, of any kind of entries. -/
theorem countP_range {β : Type} [DecidableEq β] {a b : List β} (h : a.length = b.length) :
    ((a.zip b).countP (fun p => decide (p.1 ≠ p.2)) : ℚ) = ∑ i ∈ Finset.range a.length, if a[i]? ≠ b[i]? then 1 else 0 := by
  rw [countP_eq_sum, sum_eq_range]
  have hl : ((a.zip b).map (fun p => if decide (p.1 ≠ p.2) = true then (1:ℚ) else 0)).length = a.length := by simp [h]
  rw [hl]
  apply Finset.sum_congr rfl
  intro i hi
  have h1 : i < a.length := Finset.mem_range.1 hi
  have h2 : i < b.length := by omega
  rw [List.getD_eq_getElem _ _ (by simp; omega)]
  simp [h1, h2]

theorem one_sub_fraction {n : Nat} (hn : n ≠ 0) (P : Nat → Prop) [DecidablePred P] :
    1 - fraction n (fun _ => 1) P = fraction n (fun _ => 1) (fun i => ¬ P i) := by
  have hn' : (n : ℚ) ≠ 0 := by exact_mod_cast hn
  unfold fraction
  simp only [Finset.sum_const, Finset.card_range, nsmul_eq_mul, mul_one]
  rw [eq_div_iff hn', sub_mul, div_mul_cancel₀ _ hn', one_mul, sub_eq_iff_eq_add, ← Finset.sum_add_distrib]
  rw [Finset.sum_congr rfl (g := fun _ => (1 : ℚ)) (by intro i _; by_cases h : P i <;> simp [h])]
  simp

/-- **C122.** Label vectors: the Hamming loss is the zero-one loss and one minus the accuracy; so the three agree on every comparison, and on what is perfect. -/
theorem C122_labels {a b : List Int} (h : a.length = b.length) (hne : a ≠ []) :
    ∃ q, accuracyScore (.vec a) (.vec b) none = .ok (some q) ∧ zeroOneLoss (.vec a) (.vec b) true none = .ok (some (1 - q)) ∧
      hammingLoss (.vec a) (.vec b) = .ok (some (1 - q)) ∧ 0 ≤ q ∧ q ≤ 1 ∧ (q = 1 ↔ a = b) := by
  have hl : a.length ≠ 0 := by simpa using hne
  have hs : ∑ i ∈ Finset.range a.length, weight none i ≠ 0 := by simpa [weight] using hne
  have key := C37_accuracy_vectors h none (by intro l hl; simp at hl) hs
  have hq := C39_hamming_vectors h hne
  obtain ⟨q, e1, e2, e3, e4⟩ := C39_range h hne
  rw [hq] at e1
  have e5 : 1 - fraction a.length (weight none) (fun i => a[i]? = b[i]?) = q := by
    have := one_sub_fraction hl (fun i => a[i]? = b[i]?)
    simp only [Except.ok.injEq, Option.some.injEq] at e1
    rw [← e1]
    exact this
  refine ⟨_, key, C37_zero_one_loss _ _ _ key, by rw [e5, hq, e1], by linarith, by linarith, ?_⟩
  rw [← e4]
  constructor <;> intro h <;> linarith

theorem row_counts {r t : List Int} (h : r.length = t.length) :
    (if r ≠ t then 1 else 0) ≤ (r.zip t).countP (fun p => decide (p.1 ≠ p.2)) ∧ (r.zip t).countP (fun p => decide (p.1 ≠ p.2)) ≤ r.length * (if r ≠ t then 1 else 0) := by
  by_cases e : r = t
  · subst e
    simp only [ne_eq, not_true, if_false, Nat.mul_zero, Nat.zero_le, true_and, Nat.le_zero, List.countP_eq_zero, decide_eq_true_eq, not_not]
    intro p hp
    rw [List.zip_eq_zipWith, List.zipWith_self] at hp
    obtain ⟨x, _, rfl⟩ := List.mem_map.1 hp
    rfl
  · rw [if_pos e, Nat.mul_one]
    refine ⟨?_, le_trans List.countP_le_length (by simp)⟩
    rw [Nat.one_le_iff_ne_zero, ne_eq, List.countP_eq_zero]
    intro hz
    apply e
    apply List.ext_getElem h
    intro i h1 h2
    have := hz (r[i], t[i]) (by rw [← List.getElem_zip (h := by simp; omega)]; exact List.getElem_mem _)
    simpa using this

theorem cell_counts {c : Nat} : ∀ {a b : List (List Int)}, a.length = b.length → Rect c a → Rect c b →
    (a.zip b).countP (fun p => decide (p.1 ≠ p.2)) ≤ (a.flatten.zip b.flatten).countP (fun p => decide (p.1 ≠ p.2)) ∧
    (a.flatten.zip b.flatten).countP (fun p => decide (p.1 ≠ p.2)) ≤ c * (a.zip b).countP (fun p => decide (p.1 ≠ p.2))
  | [], [], _, _, _ => by simp
  | [], _ :: _, h, _, _ => by simp at h
  | _ :: _, [], h, _, _ => by simp at h
  | r :: a, t :: b, h, ha, hb => by
    obtain ⟨h1, h2⟩ := cell_counts (a := a) (b := b) (by simpa using h) (fun x hx => ha x (List.mem_cons_of_mem _ hx)) (fun x hx => hb x (List.mem_cons_of_mem _ hx))
    have hr := ha r List.mem_cons_self
    have ht := hb t List.mem_cons_self
    obtain ⟨h3, h4⟩ := row_counts (hr.trans ht.symm)
    rw [List.flatten_cons, List.flatten_cons, List.zip_append (hr.trans ht.symm), List.countP_append, List.zip_cons_cons, List.countP_cons]
    rw [hr] at h4
    simp only [decide_eq_true_eq] at h3 h4 ⊢
    rw [Nat.mul_add]
    omega

/-- **C122.** Indicator matrices of `c` columns: the Hamming loss is at most the zero-one loss (the fraction of rows with a mistake), and this at most `c` times
the Hamming loss; both are 0 exactly for equal matrices. -/
theorem C122_label_rows {c : Nat} (hc : 1 < c) {a b : List (List Int)} (hne : a ≠ []) (h : a.length = b.length) (ha : Rect c a) (hb : Rect c b)
    (ha2 : AtMostTwoValues a.flatten) (hb2 : AtMostTwoValues b.flatten) :
    ∃ z q, zeroOneLoss (.mat c a) (.mat c b) true none = .ok (some z) ∧ hammingLoss (.mat c a) (.mat c b) = .ok (some q) ∧ q ≤ z ∧ z ≤ c * q ∧
      (z = 0 ↔ a = b) ∧ (q = 0 ↔ a = b) := by
  have hl : a.length ≠ 0 := by simpa using hne
  have hl' : (0 : ℚ) < a.length := by exact_mod_cast Nat.pos_of_ne_zero hl
  have hc' : (0 : ℚ) < c := by exact_mod_cast (by omega : 0 < c)
  have hs : ∑ i ∈ Finset.range a.length, weight none i ≠ 0 := by simpa [weight] using hne
  have key := C37_accuracy_rows hc h ha2 hb2 none (by intro l hl; simp at hl) hs
  have hq := C39_hamming_matrices_partial hc hne h ha hb ha2 hb2
  obtain ⟨q, e1, e2, -, e4⟩ := C39_range_matrices_partial hc hne h ha hb ha2 hb2
  rw [hq, ← ha.flatten_length] at e1
  have hfl : a.flatten.length = b.flatten.length := by rw [ha.flatten_length, hb.flatten_length, h]
  obtain ⟨n1, n2⟩ := cell_counts h ha hb
  have n1' : ((a.zip b).countP (fun p => decide (p.1 ≠ p.2)) : ℚ) ≤ (a.flatten.zip b.flatten).countP (fun p => decide (p.1 ≠ p.2)) := by exact_mod_cast n1
  have n2' : ((a.flatten.zip b.flatten).countP (fun p => decide (p.1 ≠ p.2)) : ℚ) ≤ c * (a.zip b).countP (fun p => decide (p.1 ≠ p.2)) := by exact_mod_cast n2
  have hz : 1 - fraction a.length (weight none) (fun i => a[i]? = b[i]?) = ((a.zip b).countP (fun p => decide (p.1 ≠ p.2)) : ℚ) / a.length := by
    have := one_sub_fraction hl (fun i => a[i]? = b[i]?)
    refine Eq.trans this ?_
    unfold fraction
    rw [countP_range h]
    simp
  have hqe : q = ((a.flatten.zip b.flatten).countP (fun p => decide (p.1 ≠ p.2)) : ℚ) / (a.length * c) := by
    simp only [Except.ok.injEq, Option.some.injEq] at e1
    rw [← e1, countP_range hfl]
    unfold fraction
    simp [ha.flatten_length]
  have hle : q ≤ ((a.zip b).countP (fun p => decide (p.1 ≠ p.2)) : ℚ) / a.length := by
    rw [hqe, div_le_div_iff₀ (mul_pos hl' hc') hl']
    nlinarith
  have hge : ((a.zip b).countP (fun p => decide (p.1 ≠ p.2)) : ℚ) / a.length ≤ c * q := by
    rw [hqe, mul_div_assoc', mul_comm (c : ℚ), mul_div_mul_right _ _ hc'.ne']
    exact (div_le_div_iff_of_pos_right hl').2 n1'
  refine ⟨_, q, C37_zero_one_loss _ _ _ key, by rw [hq, ← ha.flatten_length, e1], by rw [hz]; exact hle, by rw [hz]; exact hge, ?_, e4⟩
  rw [hz, ← e4]
  constructor
  · intro h0
    rw [h0] at hle
    exact le_antisymm hle e2
  · intro h0
    rw [h0, mul_zero] at hge
    exact le_antisymm hge (by rw [h0] at hle; exact hle)

/-! ## Concrete cases -/

/-- A perfect prediction and one that is not. -/
example : labelRankingLoss 3 [[1, 0, 0], [0, 1, 1]] [[3, 2, 0], [1, 2, 3]] none = .ok (some 0) ∧ lrapScore 3 [[1, 0, 0], [0, 1, 1]] 3 [[3, 2, 0], [1, 2, 3]] none = .ok (some 1) := by
  decide +kernel
example : Scored 3 [[1, 0, 0], [0, 1, 1]] [[3, 2, 0], [1, 2, 3]] := ⟨by decide, by decide, by decide, by decide, by unfold ZeroOne; decide⟩
example : Weights 2 (some [1/2, 2]) := ⟨by decide, by decide +kernel, ⟨0, by decide +kernel⟩⟩
example : rocAucScore [1, 0, 1, 0] [3/4, 1/2, 5/8, 1/4] none = .ok 1 ∧ rocAucScore [1, 0, 1, 0] [-3/4, -1/2, -5/8, -1/4] none = .ok 0 := by decide +kernel
example : zeroOneLoss (.mat 2 [[0, 1], [1, 1]]) (.mat 2 [[0, 1], [0, 1]]) true none = .ok (some (1/2)) ∧
    hammingLoss (.mat 2 [[0, 1], [1, 1]]) (.mat 2 [[0, 1], [0, 1]]) = .ok (some (1/4)) := by decide +kernel

end Alipy.Perfect

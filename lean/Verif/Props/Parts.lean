import Verif.Spec.Parts
import Verif.Props.RankingMetrics
import Mathlib.Tactic.FieldSimp
/-!
# Repeated examples and joined test sets (C138), reversed scores and exchanged classes (C139)
-/
namespace Alipy.Parts
open Alipy.RankMetrics Alipy.Spec

variable {α β : Type}

/-! ## Lists of repeated entries -/

theorem repeated_length : ∀ (k : List Nat) (l : List α), k.length = l.length → (repeated k l).length = k.sum
  | [], l, _ => by simp [repeated]
  | n :: k, [], h => by simp at h
  | n :: k, x :: l, h => by
    have := repeated_length k l (by simpa using h)
    simp only [repeated] at this
    simp [repeated, this]

theorem repeated_mem {k : List Nat} {l : List α} {x : α} (h : x ∈ repeated k l) : x ∈ l := by
  obtain ⟨p, hp, hx⟩ := List.mem_flatMap.1 h
  rw [List.eq_of_mem_replicate hx]
  exact (List.of_mem_zip hp).1

theorem repeated_zipWith (f : α → β → ℚ) : ∀ (k : List Nat) (a : List α) (b : List β), k.length = a.length → a.length = b.length →
    List.zipWith f (repeated k a) (repeated k b) = repeated k (List.zipWith f a b)
  | [], a, b, _, _ => by simp [repeated]
  | n :: k, [], b, h, _ => by simp at h
  | n :: k, x :: a, [], _, h => by simp at h
  | n :: k, x :: a, y :: b, h, h' => by
    have := repeated_zipWith f k a b (by simpa using h) (by simpa using h')
    simp only [repeated] at this
    simp only [repeated, List.zip_cons_cons, List.flatMap_cons, List.zipWith_cons_cons]
    rw [List.zipWith_append (by simp), this]
    simp

theorem repeated_sum : ∀ (k : List Nat) (x : List ℚ), k.length = x.length →
    (repeated k x).sum = (List.zipWith (fun x v => x * v) x (k.map (fun n : Nat => (n : ℚ)))).sum
  | [], x, _ => by simp [repeated]
  | n :: k, [], h => by simp at h
  | n :: k, v :: x, h => by
    have := repeated_sum k x (by simpa using h)
    simp only [repeated] at this
    simp [repeated, this]; ring

theorem cast_sum (k : List Nat) : ((k.sum : Nat) : ℚ) = (k.map (fun n : Nat => (n : ℚ))).sum := by
  induction k with
  | nil => simp
  | cons n k ih => simp [ih]

theorem npAverage_repeated {k : List Nat} {x : List ℚ} (h : k.length = x.length) (hk : k.sum ≠ 0) :
    npAverage x (some (k.map (fun n : Nat => (n : ℚ)))) = npAverage (repeated k x) none := by
  have hl := repeated_length k x h
  have hs : (k.map (fun n : Nat => (n : ℚ))).sum ≠ 0 := by rw [← cast_sum]; exact_mod_cast hk
  have hne : (repeated k x).isEmpty = false := by
    rw [List.isEmpty_eq_false_iff, ← List.length_pos_iff]; omega
  unfold npAverage
  simp only
  rw [if_neg hs, hne]
  simp [repeated_sum k x h, hl, cast_sum]

theorem repeated_ne {k : List Nat} {l : List α} (h : k.length = l.length) (hk : k.sum ≠ 0) : repeated k l ≠ [] := by
  rw [← List.length_pos_iff, repeated_length k l h]; omega

theorem atMostTwo_sub {l m : List Int} (h : AtMostTwoValues l) (hs : ∀ x ∈ m, x ∈ l) : AtMostTwoValues m :=
  fun x hx y hy z hz => h x (hs x hx) y (hs y hy) z (hs z hz)

theorem repeated_flatten {k : List Nat} {l : List (List Int)} (x : Int) (h : x ∈ (repeated k l).flatten) : x ∈ l.flatten := by
  obtain ⟨r, hr, hx⟩ := List.mem_flatten.1 h
  exact List.mem_flatten.2 ⟨r, repeated_mem hr, hx⟩

/-! ## The metrics as averages -/

theorem accuracy_vec {a b : List Int} (h : a.length = b.length) (w : Option (List ℚ)) (hw : FitWeights a.length w) :
    accuracyScore (.vec a) (.vec b) w = npAverage (List.zipWith (fun x y => ofBool (decide (x = y))) a b) w := by
  obtain ⟨t, ht, hne⟩ := checkTargets_vec h
  have hf : weightsFit a.length w = true := weightsFit_iff.2 hw
  unfold accuracyScore
  rw [ht]
  cases t with
  | multilabel => exact absurd rfl hne
  | binary => exact if_neg (by simp only [Tgt.ravel]; rw [hf]; simpa using h)
  | multiclass => exact if_neg (by simp only [Tgt.ravel]; rw [hf]; simpa using h)

theorem check_mat {c : Nat} (hc : 1 < c) {a b : List (List Int)} (hne : a ≠ []) (h : a.length = b.length) (ha : AtMostTwoValues a.flatten)
    (hb : AtMostTwoValues b.flatten) : checkTargets (.mat c a) (.mat c b) = .ok .multilabel := by
  have hneb : b ≠ [] := by rintro rfl; exact hne (List.length_eq_zero_iff.1 h)
  have e1 : typeOfTarget (.mat c a) = .ok .multilabel := by simp [typeOfTarget, Tgt.ravel, numUnique_le_two.2 ha, hc, hne]
  have e2 : typeOfTarget (.mat c b) = .ok .multilabel := by simp [typeOfTarget, Tgt.ravel, numUnique_le_two.2 hb, hc, hneb]
  simp [checkTargets, Tgt.len, h, e1, e2, joinType]

theorem accuracy_mat {c : Nat} (hc : 1 < c) {a b : List (List Int)} (hne : a ≠ []) (h : a.length = b.length) (ha : AtMostTwoValues a.flatten)
    (hb : AtMostTwoValues b.flatten) (w : Option (List ℚ)) (hw : FitWeights a.length w) :
    accuracyScore (.mat c a) (.mat c b) w = npAverage (List.zipWith (fun x y => ofBool (decide (x = y))) a b) w := by
  have hf : weightsFit a.length w = true := weightsFit_iff.2 hw
  unfold accuracyScore
  rw [check_mat hc hne h ha hb]
  simp [hf]

theorem coverage_avg {c : Nat} (hc : 1 < c) {y : List (List Int)} {s : List (List ℚ)} (h : Scored c y s) (w : Option (List ℚ))
    (hw : FitWeights y.length w) :
    coverageError c y s w = npAverage (List.zipWith (fun r t => (coverageRow r t : ℚ)) y s) w := by
  unfold coverageError
  rw [if_neg (by rw [weightsFit_iff.2 hw]; simpa using h.len), type_multilabel hc h.ne h.zo]

theorem ranking_avg {c : Nat} (hc : 1 < c) {y : List (List Int)} {s : List (List ℚ)} (h : Scored c y s) (w : Option (List ℚ))
    (hw : FitWeights y.length w) :
    labelRankingLoss c y s w = npAverage (List.zipWith rankingLossRow y s) w := by
  have hr : s.any (fun r => decide (r.length ≠ c)) = false := by
    rw [List.any_eq_false]
    intro r hr
    simp [h.srow r hr]
  unfold labelRankingLoss
  rw [if_neg (by rw [weightsFit_iff.2 hw]; simpa using h.len), type_multilabel hc h.ne h.zo]
  simp only [hr]
  simp

theorem lrapSum_zip (c : Nat) : ∀ (y : List (List Int)) (s : List (List ℚ)),
    lrapSum c none y s = (List.zipWith (lrapTerm c none) y s).sum
  | [], _ => by simp [lrapSum]
  | _ :: _, [] => by simp [lrapSum]
  | y :: ys, s :: ss => by simp [lrapSum, lrapSum_zip c ys ss]

theorem lrap_avg {c : Nat} {y : List (List Int)} {s : List (List ℚ)} (h : Scored c y s) :
    lrapScore c y c s none = npAverage (List.zipWith (lrapTerm c none) y s) none := by
  have hne : (List.zipWith (lrapTerm c none) y s).isEmpty = false := by
    rw [List.isEmpty_eq_false_iff, ← List.length_pos_iff]
    have := List.length_pos_iff.2 h.ne
    have := h.len
    simp; omega
  unfold lrapScore npAverage
  rw [checkScores_ok h none rfl, hne, lrapSum_zip]
  simp [← h.len]

theorem mixed_sum (c : Nat) : ∀ (y : List (List Int)) (s : List (List ℚ)),
    (((y.zip s).filter (fun p => isMixed c p.1)).map (fun p => RankMetrics.samplePrecision c p.1 p.2)).sum =
      (List.zipWith (fun r t => if isMixed c r then RankMetrics.samplePrecision c r t else 0) y s).sum
  | [], _ => by simp
  | _ :: _, [] => by simp
  | y :: ys, s :: ss => by
    have := mixed_sum c ys ss
    by_cases hm : isMixed c y = true <;> simp [hm, this]

theorem precision_avg {c : Nat} {y : List (List Int)} {s : List (List ℚ)} (h : Scored c y s) (w : Option (List ℚ))
    (hw : FitWeights y.length w) :
    ∃ q, averagePrecision c y c s w = .ok q ∧
      npAverage (List.zipWith (fun r t => if isMixed c r then RankMetrics.samplePrecision c r t else 0) y s) none = .ok (some q) := by
  have hne : (List.zipWith (fun r t => if isMixed c r then RankMetrics.samplePrecision c r t else 0) y s).isEmpty = false := by
    rw [List.isEmpty_eq_false_iff, ← List.length_pos_iff]
    have := List.length_pos_iff.2 h.ne
    have := h.len
    simp; omega
  refine ⟨_, by unfold averagePrecision; rw [checkScores_ok h w (weightsFit_iff.2 hw)], ?_⟩
  unfold npAverage
  rw [hne, mixed_sum]
  simp [← h.len]

theorem scored_repeated {c : Nat} {y : List (List Int)} {s : List (List ℚ)} (h : Scored c y s) {k : List Nat} (hl : k.length = y.length)
    (hk : k.sum ≠ 0) : Scored c (repeated k y) (repeated k s) where
  ne := repeated_ne hl hk
  len := by rw [repeated_length k y hl, repeated_length k s (by rw [hl, h.len])]
  yrow := fun r hr => h.yrow r (repeated_mem hr)
  srow := fun r hr => h.srow r (repeated_mem hr)
  zo := fun r hr => h.zo r (repeated_mem hr)

theorem scored_append {c : Nat} {y y' : List (List Int)} {s s' : List (List ℚ)} (h : Scored c y s) (h' : Scored c y' s') :
    Scored c (y ++ y') (s ++ s') where
  ne := by simp [h.ne]
  len := by simp [h.len, h'.len]
  yrow := fun r hr => (List.mem_append.1 hr).elim (h.yrow r) (h'.yrow r)
  srow := fun r hr => (List.mem_append.1 hr).elim (h.srow r) (h'.srow r)
  zo := fun r hr => (List.mem_append.1 hr).elim (h.zo r) (h'.zo r)

theorem fit_counts {k : List Nat} {n : Nat} (h : k.length = n) : FitWeights n (some (k.map (fun n : Nat => (n : ℚ)))) := by
  intro l hl; cases hl; simp [h]

/-! ## C138: a weight is a number of repetitions -/

/-- **C138**: whole numbers as weights have the effect of repeating the examples that often, for the accuracy of label vectors (and so
for the normalised zero-one loss). -/
theorem C138_repeated_vectors {a b : List Int} {k : List Nat} (h : a.length = b.length) (hl : k.length = a.length) (hk : k.sum ≠ 0) :
    accuracyScore (.vec a) (.vec b) (some (k.map (fun n : Nat => (n : ℚ)))) =
        accuracyScore (.vec (repeated k a)) (.vec (repeated k b)) none ∧
      zeroOneLoss (.vec a) (.vec b) true (some (k.map (fun n : Nat => (n : ℚ)))) =
        zeroOneLoss (.vec (repeated k a)) (.vec (repeated k b)) true none := by
  have key : accuracyScore (.vec a) (.vec b) (some (k.map (fun n : Nat => (n : ℚ)))) =
      accuracyScore (.vec (repeated k a)) (.vec (repeated k b)) none := by
    rw [accuracy_vec h _ (fit_counts hl),
      accuracy_vec (by rw [repeated_length k a hl, repeated_length k b (by omega)]) none (by simp [FitWeights]),
      npAverage_repeated (by simp [hl, h]) hk, repeated_zipWith _ k a b hl h]
  exact ⟨key, by unfold zeroOneLoss; rw [key]; simp⟩

/-- **C138**: of indicator matrices. -/
theorem C138_repeated_matrices {c : Nat} (hc : 1 < c) {a b : List (List Int)} {k : List Nat} (h : a.length = b.length)
    (ha : AtMostTwoValues a.flatten) (hb : AtMostTwoValues b.flatten) (hl : k.length = a.length) (hk : k.sum ≠ 0) :
    accuracyScore (.mat c a) (.mat c b) (some (k.map (fun n : Nat => (n : ℚ)))) =
        accuracyScore (.mat c (repeated k a)) (.mat c (repeated k b)) none ∧
      zeroOneLoss (.mat c a) (.mat c b) true (some (k.map (fun n : Nat => (n : ℚ)))) =
        zeroOneLoss (.mat c (repeated k a)) (.mat c (repeated k b)) true none := by
  have hne : a ≠ [] := by rintro rfl; simp at hl; subst hl; simp at hk
  have key : accuracyScore (.mat c a) (.mat c b) (some (k.map (fun n : Nat => (n : ℚ)))) =
      accuracyScore (.mat c (repeated k a)) (.mat c (repeated k b)) none := by
    rw [accuracy_mat hc hne h ha hb _ (fit_counts hl),
      accuracy_mat hc (repeated_ne hl hk) (by rw [repeated_length k a hl, repeated_length k b (by omega)])
        (atMostTwo_sub ha repeated_flatten) (atMostTwo_sub hb repeated_flatten) none (by simp [FitWeights]),
      npAverage_repeated (by simp [hl, h]) hk, repeated_zipWith _ k a b hl h]
  exact ⟨key, by unfold zeroOneLoss; rw [key]; simp⟩

/-- **C138**: of the coverage error and the ranking loss. -/
theorem C138_repeated_rankings {c : Nat} (hc : 1 < c) {y : List (List Int)} {s : List (List ℚ)} (h : Scored c y s) {k : List Nat}
    (hl : k.length = y.length) (hk : k.sum ≠ 0) :
    coverageError c y s (some (k.map (fun n : Nat => (n : ℚ)))) = coverageError c (repeated k y) (repeated k s) none ∧
      labelRankingLoss c y s (some (k.map (fun n : Nat => (n : ℚ)))) = labelRankingLoss c (repeated k y) (repeated k s) none := by
  have h' := scored_repeated h hl hk
  constructor
  · rw [coverage_avg hc h _ (fit_counts hl), coverage_avg hc h' none (by simp [FitWeights]),
      npAverage_repeated (by simp [hl, h.len]) hk, repeated_zipWith _ k y s hl h.len]
  · rw [ranking_avg hc h _ (fit_counts hl), ranking_avg hc h' none (by simp [FitWeights]),
      npAverage_repeated (by simp [hl, h.len]) hk, repeated_zipWith _ k y s hl h.len]

/-- The average precision score ignores its weights: it is the same for all of them. -/
theorem C138_precision_weights_violation {c : Nat} {y : List (List Int)} {s : List (List ℚ)} (h : Scored c y s) (w : List ℚ)
    (hw : w.length = y.length) : averagePrecision c y c s (some w) = averagePrecision c y c s none := by
  unfold averagePrecision
  rw [checkScores_ok h none rfl, checkScores_ok h (some w) (by simp [weightsFit, hw])]

/-! ## C138: the parts of a test set -/

theorem npAverage_append {x x' : List ℚ} {w w' v : Option (List ℚ)} (hj : Joined w w' v) (hw : FitWeights x.length w)
    (hw' : FitWeights x'.length w') (hs : amount x.length w + amount x'.length w' ≠ 0) {p q : ℚ} (hp : npAverage x w = .ok (some p))
    (hq : npAverage x' w' = .ok (some q)) :
    npAverage (x ++ x') v = .ok (some (pooled (amount x.length w) (amount x'.length w') p q)) := by
  cases hj with
  | none =>
    unfold npAverage at hp hq ⊢
    simp only at hp hq ⊢
    split at hp
    · cases hp
    · rename_i h1
      split at hq
      · cases hq
      · rename_i h2
        have e1 : (x.length : ℚ) ≠ 0 := by
          simp only [List.isEmpty_iff] at h1
          exact_mod_cast (fun h => h1 (List.length_eq_zero_iff.1 h))
        have e2 : (x'.length : ℚ) ≠ 0 := by
          simp only [List.isEmpty_iff] at h2
          exact_mod_cast (fun h => h2 (List.length_eq_zero_iff.1 h))
        rw [if_neg (by simp only [List.isEmpty_iff] at h1; simp [h1])]
        injection hp with hp; injection hp with hp
        injection hq with hq; injection hq with hq
        subst hp; subst hq
        simp only [pooled, amount, List.sum_append, List.length_append, Nat.cast_add]
        rw [mul_div_cancel₀ _ e1, mul_div_cancel₀ _ e2]
  | some l m =>
    have hl := hw l rfl
    have hm := hw' m rfl
    simp only [amount] at hs ⊢
    unfold npAverage at hp hq ⊢
    simp only at hp hq ⊢
    split at hp
    · cases hp
    · rename_i h1
      split at hq
      · cases hq
      · rename_i h2
        rw [if_neg (by rw [List.sum_append]; exact hs)]
        injection hp with hp; injection hp with hp
        injection hq with hq; injection hq with hq
        subst hp; subst hq
        rw [List.zipWith_append hl.symm]
        simp only [pooled, List.sum_append]
        rw [mul_div_cancel₀ _ h1, mul_div_cancel₀ _ h2]

theorem fit_append {n m : Nat} {w w' v : Option (List ℚ)} (hj : Joined w w' v) (hw : FitWeights n w) (hw' : FitWeights m w') :
    FitWeights (n + m) v := by
  cases hj with
  | none => simp [FitWeights]
  | some l l' =>
    intro u hu
    cases hu
    simp [hw l rfl, hw' l' rfl]

/-- **C138**: the accuracy on a test set is the mean of the accuracies on its two parts, each counting by its size (or the sum of its
weights): label vectors. -/
theorem C138_joined_vectors {a b a' b' : List Int} (h : a.length = b.length) (h' : a'.length = b'.length) {w w' v : Option (List ℚ)}
    (hj : Joined w w' v) (hw : FitWeights a.length w) (hw' : FitWeights a'.length w')
    (hs : amount a.length w + amount a'.length w' ≠ 0) {p q : ℚ} (hp : accuracyScore (.vec a) (.vec b) w = .ok (some p))
    (hq : accuracyScore (.vec a') (.vec b') w' = .ok (some q)) :
    accuracyScore (.vec (a ++ a')) (.vec (b ++ b')) v = .ok (some (pooled (amount a.length w) (amount a'.length w') p q)) := by
  rw [accuracy_vec h w hw] at hp
  rw [accuracy_vec h' w' hw'] at hq
  rw [accuracy_vec (by simp [h, h']) v (by rw [List.length_append]; exact fit_append hj hw hw'), List.zipWith_append h]
  have := npAverage_append hj (by simpa [← h] using hw) (by simpa [← h'] using hw') (by simpa [← h, ← h'] using hs) hp hq
  simpa [← h, ← h'] using this

/-- **C138**: indicator matrices. -/
theorem C138_joined_matrices {c : Nat} (hc : 1 < c) {a b a' b' : List (List Int)} (hne : a ≠ []) (hne' : a' ≠ [])
    (h : a.length = b.length) (h' : a'.length = b'.length) (ha : AtMostTwoValues (a ++ a').flatten)
    (hb : AtMostTwoValues (b ++ b').flatten) {w w' v : Option (List ℚ)}
    (hj : Joined w w' v) (hw : FitWeights a.length w) (hw' : FitWeights a'.length w')
    (hs : amount a.length w + amount a'.length w' ≠ 0) {p q : ℚ} (hp : accuracyScore (.mat c a) (.mat c b) w = .ok (some p))
    (hq : accuracyScore (.mat c a') (.mat c b') w' = .ok (some q)) :
    accuracyScore (.mat c (a ++ a')) (.mat c (b ++ b')) v = .ok (some (pooled (amount a.length w) (amount a'.length w') p q)) := by
  rw [accuracy_mat hc hne h (atMostTwo_sub ha (by intro x hx; rw [List.flatten_append]; exact List.mem_append_left _ hx))
    (atMostTwo_sub hb (by intro x hx; rw [List.flatten_append]; exact List.mem_append_left _ hx)) w hw] at hp
  rw [accuracy_mat hc hne' h' (atMostTwo_sub ha (by intro x hx; rw [List.flatten_append]; exact List.mem_append_right _ hx))
    (atMostTwo_sub hb (by intro x hx; rw [List.flatten_append]; exact List.mem_append_right _ hx)) w' hw'] at hq
  rw [accuracy_mat hc (by simp [hne]) (by simp [h, h']) ha hb v (by rw [List.length_append]; exact fit_append hj hw hw'),
    List.zipWith_append h]
  have := npAverage_append hj (by simpa [← h] using hw) (by simpa [← h'] using hw') (by simpa [← h, ← h'] using hs) hp hq
  simpa [← h, ← h'] using this

/-- **C138**: the coverage error and the ranking loss. -/
theorem C138_joined_rankings {c : Nat} (hc : 1 < c) {y y' : List (List Int)} {s s' : List (List ℚ)} (h : Scored c y s) (h' : Scored c y' s')
    {w w' v : Option (List ℚ)} (hj : Joined w w' v) (hw : FitWeights y.length w) (hw' : FitWeights y'.length w')
    (hs : amount y.length w + amount y'.length w' ≠ 0) {p q : ℚ} :
    (coverageError c y s w = .ok (some p) → coverageError c y' s' w' = .ok (some q) →
      coverageError c (y ++ y') (s ++ s') v = .ok (some (pooled (amount y.length w) (amount y'.length w') p q))) ∧
    (labelRankingLoss c y s w = .ok (some p) → labelRankingLoss c y' s' w' = .ok (some q) →
      labelRankingLoss c (y ++ y') (s ++ s') v = .ok (some (pooled (amount y.length w) (amount y'.length w') p q))) := by
  have hv : FitWeights (y ++ y').length v := by rw [List.length_append]; exact fit_append hj hw hw'
  have key : ∀ f : List Int → List ℚ → ℚ, npAverage (List.zipWith f y s) w = .ok (some p) →
      npAverage (List.zipWith f y' s') w' = .ok (some q) → npAverage (List.zipWith f (y ++ y') (s ++ s')) v =
        .ok (some (pooled (amount y.length w) (amount y'.length w') p q)) := by
    intro f hp hq
    rw [List.zipWith_append h.len]
    have := npAverage_append hj (by simpa [← h.len] using hw) (by simpa [← h'.len] using hw') (by simpa [← h.len, ← h'.len] using hs) hp hq
    simpa [← h.len, ← h'.len] using this
  rw [coverage_avg hc h w hw, coverage_avg hc h' w' hw', coverage_avg hc (scored_append h h') v hv, ranking_avg hc h w hw,
    ranking_avg hc h' w' hw', ranking_avg hc (scored_append h h') v hv]
  exact ⟨key _, key _⟩

/-- **C138**: the label ranking average precision and the average precision score. -/
theorem C138_joined_precisions {c : Nat} {y y' : List (List Int)} {s s' : List (List ℚ)} (h : Scored c y s) (h' : Scored c y' s') {p q : ℚ} :
    (lrapScore c y c s none = .ok (some p) → lrapScore c y' c s' none = .ok (some q) →
      lrapScore c (y ++ y') c (s ++ s') none = .ok (some (pooled y.length y'.length p q))) ∧
    (averagePrecision c y c s none = .ok p → averagePrecision c y' c s' none = .ok q →
      averagePrecision c (y ++ y') c (s ++ s') none = .ok (pooled y.length y'.length p q)) := by
  have hn : ∀ n, FitWeights n none := by simp [FitWeights]
  have hy : (0 : ℚ) < y.length := by exact_mod_cast List.length_pos_iff.2 h.ne
  have hy' : (0 : ℚ) < y'.length := by exact_mod_cast List.length_pos_iff.2 h'.ne
  have key : ∀ (f : List Int → List ℚ → ℚ) (p q : ℚ), npAverage (List.zipWith f y s) none = .ok (some p) →
      npAverage (List.zipWith f y' s') none = .ok (some q) → npAverage (List.zipWith f (y ++ y') (s ++ s')) none =
        .ok (some (pooled y.length y'.length p q)) := by
    intro f p q hp hq
    rw [List.zipWith_append h.len]
    have := npAverage_append Joined.none (hn _) (hn _) (by simp only [amount, List.length_zipWith, ← h.len, ← h'.len, min_self]; positivity) hp hq
    simpa [← h.len, ← h'.len, amount] using this
  constructor
  · rw [lrap_avg h, lrap_avg h', lrap_avg (scored_append h h')]
    exact key _ p q
  · obtain ⟨p', e1, f1⟩ := precision_avg h none (hn _)
    obtain ⟨q', e2, f2⟩ := precision_avg h' none (hn _)
    obtain ⟨r, e3, f3⟩ := precision_avg (scored_append h h') none (hn _)
    rw [e1, e2, e3]
    intro hp hq
    injection hp with hp; injection hq with hq
    subst hp; subst hq
    rw [key _ p' q' f1 f2] at f3
    injection f3 with f3; injection f3 with f3
    rw [← f3]

theorem countP_sum {γ : Type} (p : γ → Bool) : ∀ l : List γ, ((l.countP p : Nat) : ℚ) = (l.map (fun x => ofBool (p x))).sum
  | [] => by simp
  | x :: l => by
    rw [List.countP_cons, List.map_cons, List.sum_cons, ← countP_sum p l]
    by_cases hx : p x = true <;> simp [hx, ofBool, add_comm]

theorem hamming_vec {a b : List Int} (h : a.length = b.length) (hne : a ≠ []) :
    hammingLoss (.vec a) (.vec b) = npAverage ((a.zip b).map (fun p => ofBool (decide (p.1 ≠ p.2)))) none := by
  obtain ⟨t, ht, hm⟩ := checkTargets_vec h
  have hl : a.length ≠ 0 := by simpa using hne
  have hz : ((a.zip b).map (fun p => ofBool (decide (p.1 ≠ p.2)))).isEmpty = false := by
    rw [List.isEmpty_eq_false_iff, ← List.length_pos_iff]
    simp; omega
  unfold hammingLoss npAverage
  rw [ht, hz]
  simp only [neCount, countP_sum]
  cases t with
  | multilabel => exact absurd rfl hm
  | binary => rw [if_neg (by simpa [Tgt.len] using hl)]; simp [Tgt.len, ← h]
  | multiclass => rw [if_neg (by simpa [Tgt.len] using hl)]; simp [Tgt.len, ← h]

theorem hamming_mat {c : Nat} (hc : 1 < c) {a b : List (List Int)} (hne : a ≠ []) (h : a.length = b.length)
    (ha : Spec.Rect c a) (hb : Spec.Rect c b) (ha2 : AtMostTwoValues a.flatten) (hb2 : AtMostTwoValues b.flatten) :
    hammingLoss (.mat c a) (.mat c b) = npAverage ((a.flatten.zip b.flatten).map (fun p => ofBool (decide (p.1 ≠ p.2)))) none := by
  have hl : a.length ≠ 0 := by simpa using hne
  have e1 := ha.flatten_length
  have e2 := hb.flatten_length
  have hpos : 0 < a.length * c := by positivity
  have hz : ((a.flatten.zip b.flatten).map (fun p => ofBool (decide (p.1 ≠ p.2)))).isEmpty = false := by
    rw [List.isEmpty_eq_false_iff, ← List.length_pos_iff, List.length_map, List.length_zip, e1, e2, ← h, min_self]
    exact hpos
  unfold hammingLoss npAverage
  rw [check_mat hc hne h ha2 hb2, hz]
  simp only [neCount, if_true, countP_sum, List.length_map, List.length_zip, e1, e2, ← h, min_self]
  simp

/-- **C138**: the Hamming loss of label vectors. -/
theorem C138_joined_hamming {a b a' b' : List Int} (h : a.length = b.length) (h' : a'.length = b'.length) (hne : a ≠ []) (hne' : a' ≠ [])
    {p q : ℚ} (hp : hammingLoss (.vec a) (.vec b) = .ok (some p)) (hq : hammingLoss (.vec a') (.vec b') = .ok (some q)) :
    hammingLoss (.vec (a ++ a')) (.vec (b ++ b')) = .ok (some (pooled a.length a'.length p q)) := by
  have hn : ∀ n, FitWeights n none := by simp [FitWeights]
  have hy : (0 : ℚ) < a.length := by exact_mod_cast List.length_pos_iff.2 hne
  have hy' : (0 : ℚ) < a'.length := by exact_mod_cast List.length_pos_iff.2 hne'
  rw [hamming_vec h hne] at hp
  rw [hamming_vec h' hne'] at hq
  rw [hamming_vec (by simp [h, h']) (by simp [hne]), List.zip_append h, List.map_append]
  have := npAverage_append Joined.none (hn _) (hn _)
    (by simp only [amount, List.length_map, List.length_zip, ← h, ← h', min_self]; positivity) hp hq
  simpa [← h, ← h', amount] using this

/-- **C138**: and of indicator matrices. -/
theorem C138_joined_hamming_matrices {c : Nat} (hc : 1 < c) {a b a' b' : List (List Int)} (hne : a ≠ []) (hne' : a' ≠ [])
    (h : a.length = b.length) (h' : a'.length = b'.length) (hr : Spec.Rect c (a ++ a')) (hr' : Spec.Rect c (b ++ b'))
    (ha : AtMostTwoValues (a ++ a').flatten) (hb : AtMostTwoValues (b ++ b').flatten) {p q : ℚ}
    (hp : hammingLoss (.mat c a) (.mat c b) = .ok (some p)) (hq : hammingLoss (.mat c a') (.mat c b') = .ok (some q)) :
    hammingLoss (.mat c (a ++ a')) (.mat c (b ++ b')) = .ok (some (pooled a.length a'.length p q)) := by
  have hn : ∀ n, FitWeights n none := by simp [FitWeights]
  have hy : (0 : ℚ) < a.length := by exact_mod_cast List.length_pos_iff.2 hne
  have hy' : (0 : ℚ) < a'.length := by exact_mod_cast List.length_pos_iff.2 hne'
  have hc' : (0 : ℚ) < c := by exact_mod_cast (by omega : 0 < c)
  have r1 : Spec.Rect c a := fun r hm => hr r (List.mem_append_left _ hm)
  have r2 : Spec.Rect c a' := fun r hm => hr r (List.mem_append_right _ hm)
  have r3 : Spec.Rect c b := fun r hm => hr' r (List.mem_append_left _ hm)
  have r4 : Spec.Rect c b' := fun r hm => hr' r (List.mem_append_right _ hm)
  rw [hamming_mat hc hne h r1 r3 (atMostTwo_sub ha (by intro x hx; rw [List.flatten_append]; exact List.mem_append_left _ hx))
    (atMostTwo_sub hb (by intro x hx; rw [List.flatten_append]; exact List.mem_append_left _ hx))] at hp
  rw [hamming_mat hc hne' h' r2 r4 (atMostTwo_sub ha (by intro x hx; rw [List.flatten_append]; exact List.mem_append_right _ hx))
    (atMostTwo_sub hb (by intro x hx; rw [List.flatten_append]; exact List.mem_append_right _ hx))] at hq
  have e1 := r1.flatten_length
  have e2 := r2.flatten_length
  have e3 := r3.flatten_length
  have e4 := r4.flatten_length
  have hl : a.flatten.length = b.flatten.length := by rw [e1, e3, h]
  rw [hamming_mat hc (by simp [hne]) (by simp [h, h']) hr hr' ha hb, List.flatten_append, List.flatten_append, List.zip_append hl,
    List.map_append]
  have := npAverage_append Joined.none (hn _) (hn _)
    (by simp only [amount, List.length_map, List.length_zip, e1, e2, e3, e4, ← h, ← h', min_self, Nat.cast_mul]; positivity) hp hq
  rw [this]
  simp only [amount, List.length_map, List.length_zip, e1, e2, e3, e4, ← h, ← h', min_self, Nat.cast_mul, pooled]
  congr 2
  rw [show (a.length : ℚ) * c * p + a'.length * c * q = (a.length * p + a'.length * q) * c by ring,
    show (a.length : ℚ) * c + a'.length * c = (a.length + a'.length) * c by ring, mul_div_mul_right _ _ hc'.ne']

/-- Weight 2 and weight 1, or the first example twice. -/
example : accuracyScore (.vec [1, 0]) (.vec [1, 1]) (some [2, 1]) = accuracyScore (.vec [1, 1, 0]) (.vec [1, 1, 1]) none :=
  (C138_repeated_vectors (a := [1, 0]) (b := [1, 1]) (k := [2, 1]) rfl rfl (by decide)).1

/-- One of one right and two of three right: three of four right. -/
example : accuracyScore (.vec ([1] ++ [0, 1, 0])) (.vec ([1] ++ [0, 1, 1])) none = .ok (some (3 / 4)) := by
  have := C138_joined_vectors (a := [1]) (b := [1]) (a' := [0, 1, 0]) (b' := [0, 1, 1]) rfl rfl Joined.none (by simp [FitWeights])
    (by simp [FitWeights]) (by simp [amount]; norm_num) (p := 1) (q := 2 / 3) (by decide +kernel) (by decide +kernel)
  rw [this]
  simp [pooled, amount]; norm_num

/-- The weighted parts of a ranking loss. -/
example : Scored 2 [[1, 0]] [[2, 3]] ∧ Scored 2 [[0, 1], [1, 0]] [[1, 4], [5, 3]] ∧ Joined (some [2]) (some [1, 1]) (some ([2] ++ [1, 1])) ∧
    amount 1 (some [2]) + amount 2 (some [1, 1]) ≠ 0 := by
  refine ⟨⟨by simp, rfl, by simp, by simp, ?_⟩, ⟨by simp, rfl, by simp, by simp, ?_⟩, Joined.some _ _, by decide +kernel⟩ <;>
    simp [ZeroOne]

/-! ## C139 -/

theorem credit_swap (p q : ℚ) : credit q p = 1 - credit p q := by
  unfold credit
  rcases lt_trichotomy p q with h | h | h
  · rw [if_pos h, if_neg (by exact not_lt.2 h.le), if_neg (by exact h.ne')]; norm_num
  · subst h; norm_num
  · rw [if_neg (by exact not_lt.2 h.le), if_neg h.ne', if_pos h]; norm_num

theorem credit_neg (p q : ℚ) : credit (-p) (-q) = credit q p := by
  unfold credit
  simp [eq_comm]

theorem sum_const_sub {γ : Type} (c : ℚ) (f : γ → ℚ) : ∀ l : List γ, (l.map (fun x => c - f x)).sum = l.length * c - (l.map f).sum
  | [] => by simp
  | x :: l => by simp [sum_const_sub c f l]; ring

theorem sum_swap (f : ℚ → ℚ → ℚ) : ∀ (P N : List ℚ),
    (N.map (fun q => (P.map (fun p => f p q)).sum)).sum = (P.map (fun p => (N.map (fun q => f p q)).sum)).sum
  | [], N => by simp
  | p :: P, N => by
    simp only [List.map_cons, List.sum_cons]
    rw [← sum_swap f P N]
    induction N with
    | nil => simp
    | cons q N ih => simp only [List.map_cons, List.sum_cons]; rw [ih]; ring

theorem pair_swap {P N : List ℚ} (hP : P ≠ []) (hN : N ≠ []) : pairStatistic N P = 1 - pairStatistic P N := by
  have h1 : (0 : ℚ) < P.length := by exact_mod_cast List.length_pos_iff.2 hP
  have h2 : (0 : ℚ) < N.length := by exact_mod_cast List.length_pos_iff.2 hN
  have key : (N.map (fun q => (P.map (fun p => credit q p)).sum)).sum =
      N.length * P.length - (P.map (fun p => (N.map (fun q => credit p q)).sum)).sum := by
    have e : ∀ q, (P.map (fun p => credit q p)).sum = P.length - (P.map (fun p => credit p q)).sum := by
      intro q
      have := sum_const_sub 1 (fun p => credit p q) P
      simp only [mul_one] at this
      rw [← this]
      congr 1
      apply List.map_congr_left
      intro p _
      exact credit_swap p q
    simp only [e]
    rw [sum_const_sub, sum_swap]
  unfold pairStatistic
  rw [key]
  field_simp

theorem pair_neg {P N : List ℚ} (hP : P ≠ []) (hN : N ≠ []) :
    pairStatistic (P.map (fun x => -x)) (N.map (fun x => -x)) = 1 - pairStatistic P N := by
  rw [← pair_swap hP hN]
  unfold pairStatistic
  rw [List.length_map, List.length_map, mul_comm (P.length : ℚ)]
  congr 1
  rw [List.map_map]
  simp only [Function.comp_def, List.map_map, credit_neg]
  rw [sum_swap]

theorem scoresWith_map (P : Int → Bool) (f : ℚ → ℚ) : ∀ (y : List Int) (s : List ℚ),
    scoresWith P y (s.map f) = (scoresWith P y s).map f
  | [], s => by simp [scoresWith]
  | _ :: _, [] => by simp [scoresWith]
  | c :: y, x :: s => by
    have := scoresWith_map P f y s
    simp only [scoresWith] at this ⊢
    by_cases hc : P c = true <;> simp [hc, this]

theorem scoresWith_congr' {P Q : Int → Bool} : ∀ {y z : List Int} {s : List ℚ}, y.length = z.length →
    (∀ i (h : i < y.length) (h' : i < z.length), P y[i] = Q z[i]) → scoresWith P y s = scoresWith Q z s
  | [], [], s, _, _ => by simp [scoresWith]
  | [], _ :: _, _, h, _ => by simp at h
  | _ :: _, [], _, h, _ => by simp at h
  | _ :: _, _ :: _, [], _, _ => by simp [scoresWith]
  | c :: y, d :: z, x :: s, h, hpq => by
    have ih := scoresWith_congr' (y := y) (z := z) (s := s) (by simpa using h) (fun i h1 h2 =>
      hpq (i + 1) (by simpa using h1) (by simpa using h2))
    have h0 : P c = Q d := hpq 0 (by simp) (by simp)
    simp only [scoresWith] at ih ⊢
    by_cases hc : Q d = true <;> simp [h0, hc, ih]

/-- **C139**: for the scores with the opposite sign, the area under the ROC curve is one minus the area. -/
theorem C139_reversed {y : List Int} {s : List ℚ} {pos : Option Int} (h : y.length = s.length) (hok : pos ≠ none ∨ BinaryLabels y)
    (hP : positives pos y s ≠ []) (hN : negatives pos y s ≠ []) :
    ∃ q, rocAucScore y s pos = .ok q ∧ rocAucScore y (s.map (fun x => -x)) pos = .ok (1 - q) := by
  refine ⟨_, C38_auc h hok hP hN, ?_⟩
  have e1 : positives pos y (s.map (fun x => -x)) = (positives pos y s).map (fun x => -x) := scoresWith_map _ _ _ _
  have e2 : negatives pos y (s.map (fun x => -x)) = (negatives pos y s).map (fun x => -x) := scoresWith_map _ _ _ _
  rw [C38_auc (by simpa using h) hok (by rw [e1]; simpa using hP) (by rw [e2]; simpa using hN), e1, e2, pair_neg hP hN]

/-- **C139**: if there are two classes, the areas for one and for the other of them as the positive class add up to one. -/
theorem C139_other_class {y : List Int} {s : List ℚ} {a b : Int} (hab : a ≠ b) (hy : ∀ c ∈ y, c = a ∨ c = b) (h : y.length = s.length)
    (hP : positives (some a) y s ≠ []) (hN : negatives (some a) y s ≠ []) :
    ∃ q, rocAucScore y s (some a) = .ok q ∧ rocAucScore y s (some b) = .ok (1 - q) := by
  refine ⟨_, C38_auc h (Or.inl (by simp)) hP hN, ?_⟩
  have e1 : positives (some b) y s = negatives (some a) y s := by
    unfold positives negatives
    refine scoresWith_congr' rfl ?_
    intro i h1 _
    rcases hy _ (List.getElem_mem h1) with e | e <;> simp [e, hab, hab.symm]
  have e2 : negatives (some b) y s = positives (some a) y s := by
    unfold positives negatives
    refine scoresWith_congr' rfl ?_
    intro i h1 _
    rcases hy _ (List.getElem_mem h1) with e | e <;> simp [e, hab, hab.symm]
  rw [C38_auc h (Or.inl (by simp)) (by rw [e1]; exact hN) (by rw [e2]; exact hP), e1, e2, pair_swap hP hN]

/-- **C139**: the same if the labels 0 and 1 (or -1 and 1) of the examples are exchanged and the positive class is not given. -/
theorem C139_exchanged {y : List Int} {s : List ℚ} {z : Int} (hz : z = 0 ∨ z = -1) (hy : ∀ c ∈ y, c = 1 ∨ c = z) (h : y.length = s.length)
    (hP : positives none y s ≠ []) (hN : negatives none y s ≠ []) :
    ∃ q, rocAucScore y s none = .ok q ∧ rocAucScore (exchanged 1 z y) s none = .ok (1 - q) := by
  have hne : y ≠ [] := by rintro rfl; simp [positives, scoresWith] at hP
  have hb : ∀ y : List Int, y ≠ [] → (∀ c ∈ y, c = 1 ∨ c = z) → BinaryLabels y := by
    intro y hne hy
    rcases hz with rfl | rfl
    · exact ⟨hne, Or.inl (fun c hc => (hy c hc).symm)⟩
    · exact ⟨hne, Or.inr (fun c hc => (hy c hc).symm)⟩
  have hz1 : z ≠ 1 := by rcases hz with rfl | rfl <;> decide
  refine ⟨_, C38_auc h (Or.inr (hb y hne hy)) hP hN, ?_⟩
  have e1 : positives none (exchanged 1 z y) s = negatives none y s := by
    unfold positives negatives exchanged
    refine scoresWith_congr' (by simp) ?_
    intro i h1 h2
    rcases hy _ (List.getElem_mem h2) with e | e <;> simp [e, hz1]
  have e2 : negatives none (exchanged 1 z y) s = positives none y s := by
    unfold positives negatives exchanged
    refine scoresWith_congr' (by simp) ?_
    intro i h1 h2
    rcases hy _ (List.getElem_mem h2) with e | e <;> simp [e, hz1]
  rw [C38_auc (by simpa [exchanged] using h) (Or.inr (hb _ (by simpa [exchanged] using hne) (by
    intro c hc
    obtain ⟨d, _, rfl⟩ := List.mem_map.1 hc
    by_cases hd : d = 1 <;> simp [hd]))) (by rw [e1]; exact hN) (by rw [e2]; exact hP), e1, e2, pair_swap hP hN]

theorem zip_nodup {y : List Int} {s : List ℚ} (hs : s.Nodup) {a b : Int} {x : ℚ} (h1 : (a, x) ∈ y.zip s) (h2 : (b, x) ∈ y.zip s) : a = b := by
  obtain ⟨i, hi, e1⟩ := List.mem_iff_getElem.1 h1
  obtain ⟨j, hj, e2⟩ := List.mem_iff_getElem.1 h2
  rw [List.getElem_zip, Prod.mk.injEq] at e1 e2
  have : i = j := (hs.getElem_inj_iff (hi := by simp at hi; omega) (hj := by simp at hj; omega)).1 (e1.2.trans e2.2.symm)
  subst this
  exact e1.1.symm.trans e2.1

theorem mem_scoresWith {P : Int → Bool} {y : List Int} {s : List ℚ} {x : ℚ} (h : x ∈ scoresWith P y s) : ∃ c, P c = true ∧ (c, x) ∈ y.zip s := by
  obtain ⟨p, hp, rfl⟩ := List.mem_map.1 h
  obtain ⟨h1, h2⟩ := List.mem_filter.1 hp
  exact ⟨p.1, h2, h1⟩

theorem scoresWith_ne {P : Int → Bool} {y : List Int} {s : List ℚ} (h : y.length = s.length) {c : Int} (hc : c ∈ y) (hP : P c = true) :
    scoresWith P y s ≠ [] := by
  obtain ⟨i, hi, rfl⟩ := List.mem_iff_getElem.1 hc
  have : (y[i], s[i]'(by omega)) ∈ y.zip s := List.mem_iff_getElem.2 ⟨i, by simp; omega, by simp⟩
  intro hn
  have : s[i]'(by omega) ∈ scoresWith P y s := List.mem_map.2 ⟨_, List.mem_filter.2 ⟨this, hP⟩, rfl⟩
  rw [hn] at this
  simp at this

theorem wrong_neg {R I : List ℚ} (hR : R ≠ []) (hI : I ≠ []) (hd : ∀ r ∈ R, ∀ x ∈ I, r ≠ x) :
    wrongPairs (R.map (fun x => -x)) (I.map (fun x => -x)) = 1 - wrongPairs R I := by
  have h1 : (0 : ℚ) < R.length := by exact_mod_cast List.length_pos_iff.2 hR
  have h2 : (0 : ℚ) < I.length := by exact_mod_cast List.length_pos_iff.2 hI
  have hc : ∀ r ∈ R, (((I.map (fun x => -x)).countP (fun x => decide (-r ≤ x)) : Nat) : ℚ) =
      I.length - (I.countP (fun x => decide (r ≤ x)) : Nat) := by
    intro r hr
    have e := List.length_eq_countP_add_countP (fun x => decide (r ≤ x)) (l := I)
    have e' : (I.map (fun x => -x)).countP (fun x => decide (-r ≤ x)) = I.countP (fun x => !decide (r ≤ x)) := by
      rw [List.countP_map]
      apply List.countP_congr
      intro x hx
      have := hd r hr x hx
      simp only [Function.comp_apply, decide_eq_true_eq, neg_le_neg_iff, Bool.not_eq_true', decide_eq_false_iff_not, not_le]
      exact ⟨fun h => lt_of_le_of_ne h this.symm, le_of_lt⟩
    rw [e']
    have : I.countP (fun x => !decide (r ≤ x)) = I.length - I.countP (fun x => decide (r ≤ x)) := by
      simp only [Bool.not_eq_true] at e
      have e3 : (fun a => decide (decide (r ≤ a) = false)) = (fun x : ℚ => !decide (r ≤ x)) := by
        funext a; by_cases h : r ≤ a <;> simp [h]
      rw [e3] at e
      omega
    rw [this, Nat.cast_sub List.countP_le_length]
  unfold wrongPairs
  rw [List.map_map, List.length_map, List.length_map]
  have : R.map ((fun r => (((I.map (fun x => -x)).countP (fun s => decide (r ≤ s)) : Nat) : ℚ)) ∘ fun x => -x) =
      R.map (fun r => (I.length : ℚ) - (I.countP (fun x => decide (r ≤ x)) : Nat)) := by
    apply List.map_congr_left
    intro r hr
    exact hc r hr
  rw [this, sum_const_sub]
  field_simp

theorem npAverage_compl {x : List ℚ} {w : Option (List ℚ)} (hw : FitWeights x.length w) {p : ℚ} (h : npAverage x w = .ok (some p)) :
    npAverage (x.map (fun v => 1 - v)) w = .ok (some (1 - p)) := by
  cases w with
  | none =>
    unfold npAverage at h ⊢
    simp only at h ⊢
    split at h
    · cases h
    · rename_i h1
      simp only [List.isEmpty_iff] at h1
      have e1 : (x.length : ℚ) ≠ 0 := by exact_mod_cast (fun h => h1 (List.length_eq_zero_iff.1 h))
      rw [if_neg (by simpa using h1)]
      injection h with h; injection h with h
      subst h
      rw [sum_const_sub 1 (fun v => v)]
      simp only [List.length_map, List.map_id']
      congr 2
      field_simp
  | some l =>
    have hl := hw l rfl
    unfold npAverage at h ⊢
    simp only at h ⊢
    split at h
    · cases h
    · rename_i h1
      rw [if_neg h1]
      injection h with h; injection h with h
      subst h
      have : ∀ (x l : List ℚ), l.length = x.length → (List.zipWith (fun x v => x * v) (x.map (fun v => 1 - v)) l).sum =
          l.sum - (List.zipWith (fun x v => x * v) x l).sum := by
        intro x
        induction x with
        | nil => intro l hl; simp at hl; subst hl; simp
        | cons v x ih =>
          intro l hl
          cases l with
          | nil => simp at hl
          | cons u l => simp [ih l (by simpa using hl)]; ring
      rw [this x l hl]
      congr 2
      field_simp

/-- **C139**: if the labels of every example are ranked without ties, the ranking loss of the reversed ranking is one minus the loss;
every example must have relevant and irrelevant labels. -/
theorem C139_ranking_loss {c : Nat} (hc : 1 < c) {y : List (List Int)} {s : List (List ℚ)} (h : Scored c y s)
    (hm : ∀ r ∈ y, 0 ∈ r ∧ 1 ∈ r) (hd : ∀ t ∈ s, t.Nodup) {w : Option (List ℚ)} (hw : FitWeights y.length w) {p : ℚ}
    (hp : labelRankingLoss c y s w = .ok (some p)) :
    labelRankingLoss c y (s.map (fun t => t.map (fun x => -x))) w = .ok (some (1 - p)) := by
  have h' : Scored c y (s.map (fun t => t.map (fun x => -x))) :=
    ⟨h.ne, by simpa using h.len, h.yrow, by
      intro r hr
      obtain ⟨t, ht, rfl⟩ := List.mem_map.1 hr
      simpa using h.srow t ht, h.zo⟩
  rw [ranking_avg hc h w hw] at hp
  rw [ranking_avg hc h' w hw]
  have hrow : ∀ r ∈ y, ∀ t ∈ s, rankingLossRow r (t.map (fun x => -x)) = 1 - rankingLossRow r t := by
    intro r hr t ht
    have hl : r.length = t.length := by rw [h.yrow r hr, h.srow t ht]
    rw [C40_row r t hl, C40_row r (t.map (fun x => -x)) (by simpa using hl), scoresWith_map, scoresWith_map]
    refine wrong_neg (scoresWith_ne hl (hm r hr).2 (by simp)) (scoresWith_ne hl (hm r hr).1 (by simp)) ?_
    intro a ha b hb e
    subst e
    obtain ⟨u, hu, mu⟩ := mem_scoresWith ha
    obtain ⟨v, hv, mv⟩ := mem_scoresWith hb
    have := zip_nodup (hd t ht) mu mv
    subst this
    simp at hu hv
    exact hu hv
  have key : ∀ (y : List (List Int)) (s : List (List ℚ)), (∀ r ∈ y, ∀ t ∈ s, rankingLossRow r (t.map (fun x => -x)) = 1 - rankingLossRow r t) →
      List.zipWith rankingLossRow y (s.map (fun t => t.map (fun x => -x))) = (List.zipWith rankingLossRow y s).map (fun v => 1 - v) := by
    intro y
    induction y with
    | nil => intro s _; simp
    | cons r y ih =>
      intro s hs
      cases s with
      | nil => simp
      | cons t s =>
        simp only [List.map_cons, List.zipWith_cons_cons]
        rw [hs r (by simp) t (by simp), ih s (fun r hr t ht => hs r (by simp [hr]) t (by simp [ht]))]
  rw [key y s hrow]
  exact npAverage_compl (by simpa [← h.len] using hw) hp

/-- Three of four pairs right, then one of four. -/
example : rocAucScore [1, 0, 1, 0] [4, 2, 3, 3] none = .ok (7 / 8) ∧ rocAucScore (exchanged 1 0 [1, 0, 1, 0]) [4, 2, 3, 3] none = .ok (1 / 8) := by
  have h1 : rocAucScore [1, 0, 1, 0] [4, 2, 3, 3] none = .ok (7 / 8) := by
    rw [C38_auc rfl (Or.inr (by decide)) (by decide +kernel) (by decide +kernel)]
    congr 1
    decide +kernel
  obtain ⟨q, e, e'⟩ := C139_exchanged (y := [1, 0, 1, 0]) (s := [4, 2, 3, 3]) (z := 0) (Or.inl rfl) (by decide) rfl (by decide +kernel)
    (by decide +kernel)
  rw [h1] at e
  injection e with e
  rw [h1, e', ← e]
  norm_num

/-- A ranking with one of two pairs wrong. -/
example : labelRankingLoss 3 [[1, 0, 0]] [[2, 3, 1]] none = .ok (some (1 / 2)) ∧
    labelRankingLoss 3 [[1, 0, 0]] [[-2, -3, -1]] none = .ok (some (1 - 1 / 2)) := by
  have h : Scored 3 [[1, 0, 0]] [[2, 3, 1]] := ⟨by simp, rfl, by simp, by simp, by simp [ZeroOne]⟩
  have e : labelRankingLoss 3 [[1, 0, 0]] [[2, 3, 1]] none = .ok (some (1 / 2)) := by
    rw [ranking_avg (by decide) h none (by simp [FitWeights])]
    simp only [List.zipWith_cons_cons, List.zipWith_nil_left, npAverage]
    rw [C40_row _ _ rfl]
    simp [wrongPairs, scoresWith]
    norm_num
  exact ⟨e, C139_ranking_loss (by decide) h (by simp) (by simp) (by simp [FitWeights]) e⟩

end Alipy.Parts

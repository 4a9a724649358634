import Verif.Model.Perf
import Verif.Spec.Perf
import Verif.Props.Ranking
import Verif.Props.Metrics
import Verif.Props.RankingMetrics
/-!
# C99: the performances computed by the toolbox and recorded by an experiment
-/
set_option linter.unusedSectionVars false
set_option linter.unusedSimpArgs false
namespace Alipy.Perf
open Alipy

variable {f1 : Tgt → Pred → Except PyErr Value}

/-! ## Predicted labels -/

/-- **C99**: with `accuracy_score` and predicted labels the performance is the weighted fraction of correct predictions. -/
theorem C99_accuracy {y t : List Int} (h : y.length = t.length) (w : Option (List ℚ)) (hw : ∀ l, w = some l → l.length = y.length)
    (hs : ∑ i ∈ Finset.range y.length, Spec.weight w i ≠ 0) (pos : Option Int) :
    calcPerformance f1 (.vec y) (.labels (.vec t)) "accuracy_score" pos w =
      .ok (.num (some (Spec.fraction y.length (Spec.weight w) (fun i => y[i]? = t[i]?)))) := by
  have hw' : weightsFit y.length w = true := by
    cases w with
    | none => rfl
    | some l => simp [weightsFit, hw l rfl]
  show (accuracyScore (.vec y) (.vec t) w).map Value.num = _
  rw [C37_accuracy_vectors h w (weightsFit_iff.1 hw') hs]
  rfl

/-- **C99**: with `hamming_loss` it is the fraction of wrong predictions. -/
theorem C99_hamming {y t : List Int} (h : y.length = t.length) (hne : y ≠ []) (pos : Option Int) (w : Option (List ℚ)) :
    calcPerformance f1 (.vec y) (.labels (.vec t)) "hamming_loss" pos w =
      .ok (.num (some (Spec.fraction y.length (fun _ => 1) (fun i => y[i]? ≠ t[i]?)))) := by
  show (hammingLoss (.vec y) (.vec t)).map Value.num = _
  rw [C39_hamming_vectors h hne]
  rfl

/-- **C99**, label matrices of at most two values (multi-label predictions): with `accuracy_score` it is the weighted fraction of the examples
of which all labels are predicted correctly. -/
theorem C99_accuracy_rows {c : Nat} (hc : 1 < c) {y t : List (List Int)} (h : y.length = t.length) (hy : Spec.AtMostTwoValues y.flatten)
    (ht : Spec.AtMostTwoValues t.flatten) (w : Option (List ℚ)) (hw : Spec.FitWeights y.length w)
    (hs : ∑ i ∈ Finset.range y.length, Spec.weight w i ≠ 0) (pos : Option Int) :
    calcPerformance f1 (.mat c y) (.labels (.mat c t)) "accuracy_score" pos w =
      .ok (.num (some (Spec.fraction y.length (Spec.weight w) (fun i => y[i]? = t[i]?)))) := by
  show (accuracyScore (.mat c y) (.mat c t) w).map Value.num = _
  rw [C37_accuracy_rows hc h hy ht w hw hs]
  rfl

/-- **C99**, label matrices of at most two values: with `hamming_loss` it is the fraction of the cells predicted wrongly. -/
theorem C99_hamming_cells {c : Nat} (hc : 1 < c) {y t : List (List Int)} (hne : y ≠ []) (h : y.length = t.length)
    (hy : Spec.Rect c y) (ht : Spec.Rect c t) (hy2 : Spec.AtMostTwoValues y.flatten) (ht2 : Spec.AtMostTwoValues t.flatten)
    (pos : Option Int) (w : Option (List ℚ)) :
    calcPerformance f1 (.mat c y) (.labels (.mat c t)) "hamming_loss" pos w =
      .ok (.num (some (Spec.fraction (y.length * c) (fun _ => 1) (fun i => y.flatten[i]? ≠ t.flatten[i]?)))) := by
  show (hammingLoss (.mat c y) (.mat c t)).map Value.num = _
  rw [C39_hamming_matrices_partial hc hne h hy ht hy2 ht2]
  rfl

/-- **C99**: a name that is not one of the nine is refused, whatever the predictions are. -/
theorem C99_unknown_name (y : Tgt) (p : Pred) (name : String) (pos : Option Int) (w : Option (List ℚ))
    (h : name ∉ ["accuracy_score", "roc_auc_score", "get_fps_tps_thresholds", "hamming_loss", "one_error", "coverage_error", "f1_score",
      "label_ranking_loss", "label_ranking_average_precision_score"]) :
    calcPerformance f1 y p name pos w = .error .notImplementedError := by
  have : parse name = .error .notImplementedError := by
    unfold parse
    split <;> simp_all
  simp [calcPerformance, this]

/-! ## Scores -/

/-- **C99** (partial: scores as a table with one column): with `roc_auc_score` the performance is the probability that a positive example is
scored above a negative one. -/
theorem C99_auc_column_partial {y : List Int} {s : List ℚ} {pos : Option Int} (h : y.length = s.length) (hok : pos ≠ none ∨ Spec.BinaryLabels y)
    (hP : Spec.positives pos y s ≠ []) (hN : Spec.negatives pos y s ≠ []) (w : Option (List ℚ)) :
    calcPerformance f1 (.vec y) (.table 1 (s.map (fun v => [v]))) "roc_auc_score" pos w =
      .ok (.num (some (Spec.pairStatistic (Spec.positives pos y s) (Spec.negatives pos y s)))) := by
  have hcol : firstColumn (.table 1 (s.map (fun v => [v]))) = .ok s := by
    simp [firstColumn, Function.comp_def]
  show (match firstColumn (.table 1 (s.map (fun v => [v]))) with
    | .error e => (.error e : Except PyErr Value)
    | .ok s => withScore .rocAuc (.vec y) s pos) = _
  rw [hcol]
  show (rocAucScore y s pos).map (fun q => Value.num (some q)) = _
  rw [C38_auc h hok hP hN]
  rfl

theorem scoresWith_map (P : Int → Bool) (f : ℚ → ℚ) : ∀ (y : List Int) (s : List ℚ),
    Spec.scoresWith P y (s.map f) = (Spec.scoresWith P y s).map f
  | [], _ => by simp [Spec.scoresWith]
  | _ :: _, [] => by simp [Spec.scoresWith]
  | c :: y, v :: s => by
    have ih := scoresWith_map P f y s
    unfold Spec.scoresWith at ih ⊢
    simp only [List.map_cons, List.zip_cons_cons, List.filter_cons]
    split
    · simp only [List.map_cons, ih]
    · exact ih

theorem credit_flip (p q : ℚ) : Spec.credit (1 - p) (1 - q) = 1 - Spec.credit p q := by
  unfold Spec.credit
  rcases lt_trichotomy p q with h | h | h
  · rw [if_pos (by linarith), if_neg (by linarith), if_neg (by linarith)]; norm_num
  · subst h; simp; norm_num
  · rw [if_neg (by linarith), if_neg (by linarith), if_pos h]; norm_num

theorem sum_one_sub (f : ℚ → ℚ) : ∀ l : List ℚ, (l.map (fun x => 1 - f x)).sum = l.length - (l.map f).sum
  | [] => by simp
  | x :: l => by
    rw [List.map_cons, List.sum_cons, List.map_cons, List.sum_cons, sum_one_sub f l, List.length_cons]
    push_cast; ring

theorem sum_const_sub (c : ℚ) (f : ℚ → ℚ) : ∀ l : List ℚ, (l.map (fun x => c - f x)).sum = l.length * c - (l.map f).sum
  | [] => by simp
  | x :: l => by
    rw [List.map_cons, List.sum_cons, List.map_cons, List.sum_cons, sum_const_sub c f l, List.length_cons]
    push_cast; ring

theorem pairStatistic_flip {P N : List ℚ} (hP : P ≠ []) (hN : N ≠ []) :
    Spec.pairStatistic (P.map (fun v => 1 - v)) (N.map (fun v => 1 - v)) = 1 - Spec.pairStatistic P N := by
  have hP' : (P.length : ℚ) ≠ 0 := by exact_mod_cast (List.length_pos_of_ne_nil hP).ne'
  have hN' : (N.length : ℚ) ≠ 0 := by exact_mod_cast (List.length_pos_of_ne_nil hN).ne'
  unfold Spec.pairStatistic
  simp only [List.map_map, Function.comp_def, List.length_map, credit_flip, sum_one_sub]
  rw [sum_const_sub]
  field_simp

/-- **C99**, fails for class probabilities: with the two columns of `predict_proba` the performance is one minus the probability that
a positive example is scored above a negative one: the better the model, the lower the value. -/
theorem C99_auc_proba_violation {y : List Int} {p : List ℚ} {pos : Option Int} (h : y.length = p.length)
    (hok : pos ≠ none ∨ Spec.BinaryLabels y) (hP : Spec.positives pos y p ≠ []) (hN : Spec.negatives pos y p ≠ []) (w : Option (List ℚ)) :
    calcPerformance f1 (.vec y) (Spec.probaTable p) "roc_auc_score" pos w =
      .ok (.num (some (1 - Spec.pairStatistic (Spec.positives pos y p) (Spec.negatives pos y p)))) := by
  have hcol : firstColumn (Spec.probaTable p) = .ok (p.map (fun v => 1 - v)) := by
    simp [firstColumn, Spec.probaTable, Function.comp_def]
  have e1 : Spec.positives pos y (p.map (fun v => 1 - v)) = (Spec.positives pos y p).map (fun v => 1 - v) := scoresWith_map _ _ _ _
  have e2 : Spec.negatives pos y (p.map (fun v => 1 - v)) = (Spec.negatives pos y p).map (fun v => 1 - v) := scoresWith_map _ _ _ _
  show (match firstColumn (Spec.probaTable p) with
    | .error e => (.error e : Except PyErr Value)
    | .ok s => withScore .rocAuc (.vec y) s pos) = _
  rw [hcol]
  show (rocAucScore y (p.map (fun v => 1 - v)) pos).map (fun q => Value.num (some q)) = _
  rw [C38_auc (by simpa using h) hok (by rw [e1]; simpa using hP) (by rw [e2]; simpa using hN), e1, e2, pairStatistic_flip hP hN]
  rfl

/-- **C99**, fails for scores in one dimension (probabilities of the positive class, as `roc_auc_score` itself expects them). -/
theorem C99_auc_vector_violation (y : Tgt) (s : List ℚ) (pos : Option Int) (w : Option (List ℚ)) :
    calcPerformance f1 y (.scores s) "roc_auc_score" pos w = .error .indexError := rfl

/-- **C99**, fails for the three ranking metrics of multi-label data: they cannot be computed this way for any labels and predictions. -/
theorem C99_ranking_metrics_violation (y : Tgt) (p : Pred) (name : String)
    (hn : name ∈ ["coverage_error", "label_ranking_loss", "label_ranking_average_precision_score"]) (pos : Option Int) (w : Option (List ℚ)) :
    ∃ e, calcPerformance f1 y p name pos w = .error e := by
  have key : ∀ n, n = Name.coverage ∨ n = .rankingLoss ∨ n = .lrap → ∃ e, (match firstColumn p with
      | .error e => .error e
      | .ok s => withScore n y s pos) = (.error e : Except PyErr Value) := by
    intro n hn
    cases firstColumn p with
    | error e => exact ⟨e, rfl⟩
    | ok s =>
      rcases hn with rfl | rfl | rfl
      · simp only [withScore, coverageVec]
        split
        · exact ⟨_, rfl⟩
        · rcases typeOfTarget y with e | t
          · exact ⟨_, rfl⟩
          · cases t <;> exact ⟨_, rfl⟩
      · simp only [withScore, rankingLossVec]
        split
        · exact ⟨_, rfl⟩
        · rcases typeOfTarget y with e | t
          · exact ⟨_, rfl⟩
          · exact ⟨_, rfl⟩
      · simp only [withScore, lrapVec]
        split
        · exact ⟨_, rfl⟩
        · cases y with
          | mat c rows => exact ⟨_, rfl⟩
          | vec l =>
            simp only
            rcases typeOfTarget (.vec l) with e | t
            · exact ⟨_, rfl⟩
            · exact ⟨_, rfl⟩
  simp only [List.mem_cons, List.not_mem_nil, or_false] at hn
  rcases hn with rfl | rfl | rfl
  · exact key .coverage (by simp)
  · exact key .rankingLoss (by simp)
  · exact key .lrap (by simp)

/-! ## The performance recorded by an experiment -/

theorem scoresWith_cast (P : Int → Bool) (y t : List Int) :
    Spec.scoresWith P y (t.map (fun (c : Int) => (c : ℚ))) = ((y.zip t).filter (fun q => P q.1)).map (fun q => ((q.2 : Int) : ℚ)) := by
  unfold Spec.scoresWith
  induction y generalizing t with
  | nil => simp
  | cons c y ih =>
    cases t with
    | nil => simp
    | cons d t =>
      have := ih t
      simp only [List.map_cons, List.zip_cons_cons, List.filter_cons]
      split
      · simp only [List.map_cons, this]
      · exact this

theorem credit_labels {a b : Int} (hab : a < b) {p q : Int} (hp : p = a ∨ p = b) (hq : q = a ∨ q = b) :
    Spec.credit (p : ℚ) (q : ℚ) = ((if p = b then 1 else 0) + (if q = a then 1 else 0)) / 2 := by
  have hab' : (a : ℚ) < b := by exact_mod_cast hab
  unfold Spec.credit
  rcases hp with rfl | rfl <;> rcases hq with rfl | rfl
  · simp [hab.ne]
  · rw [if_neg (by linarith), if_neg hab'.ne', if_neg hab.ne, if_neg hab.ne']; norm_num
  · rw [if_pos hab', if_pos rfl, if_pos rfl]; norm_num
  · simp [hab.ne']

theorem sum_half (P : List Int) (f : Int → ℚ) (c : ℚ) : (P.map (fun p => (f p + c) / 2)).sum = ((P.map f).sum + P.length * c) / 2 := by
  induction P with
  | nil => simp
  | cons p P ih => rw [List.map_cons, List.sum_cons, ih, List.map_cons, List.sum_cons, List.length_cons]; push_cast; ring

theorem sum_ind (b : Int) : ∀ P : List Int, (P.map (fun p => if p = b then (1 : ℚ) else 0)).sum = (P.countP (fun p => decide (p = b)) : ℚ)
  | [] => by simp
  | p :: P => by
    rw [List.map_cons, List.sum_cons, sum_ind b P, List.countP_cons]
    by_cases h : p = b <;> simp [h]
    ring

/-- The statistic of predicted labels. -/
theorem pairStatistic_labels {a b : Int} (hab : a < b) {P N : List Int} (hP : P ≠ []) (hN : N ≠ []) (hPab : ∀ p ∈ P, p = a ∨ p = b)
    (hNab : ∀ q ∈ N, q = a ∨ q = b) :
    Spec.pairStatistic (P.map (fun (c : Int) => (c : ℚ))) (N.map (fun (c : Int) => (c : ℚ))) =
      ((P.countP (fun p => decide (p = b)) : ℚ) / P.length + (N.countP (fun p => decide (p = a)) : ℚ) / N.length) / 2 := by
  have hP' : (P.length : ℚ) ≠ 0 := by exact_mod_cast (List.length_pos_of_ne_nil hP).ne'
  have hN' : (N.length : ℚ) ≠ 0 := by exact_mod_cast (List.length_pos_of_ne_nil hN).ne'
  unfold Spec.pairStatistic
  simp only [List.map_map, Function.comp_def, List.length_map]
  have inner : ∀ p ∈ P, (N.map (fun q : Int => Spec.credit (p : ℚ) (q : ℚ))).sum =
      ((N.length : ℚ) * (if p = b then 1 else 0) + (N.countP (fun q => decide (q = a)) : ℚ)) / 2 := by
    intro p hp
    rw [List.map_congr_left (fun q hq => credit_labels hab (hPab p hp) (hNab q hq)), ← sum_ind a N]
    rw [show (fun q : Int => ((if p = b then (1 : ℚ) else 0) + if q = a then (1 : ℚ) else 0) / 2) =
        (fun q : Int => ((if q = a then (1 : ℚ) else 0) + (if p = b then (1 : ℚ) else 0)) / 2) from by funext q; ring]
    rw [sum_half N (fun q => if q = a then (1 : ℚ) else 0)]
    ring
  rw [List.map_congr_left inner, sum_half P (fun p => (N.length : ℚ) * (if p = b then 1 else 0)), List.sum_map_mul_left, sum_ind b P]
  field_simp

theorem filter_count (c d : Int) : ∀ y t : List Int, (((y.zip t).filter (fun q => decide (q.1 = c))).map Prod.snd).countP (fun x => decide (x = d)) =
    (y.zip t).countP (fun q => decide (q.1 = c ∧ q.2 = d))
  | [], _ => by simp
  | _ :: _, [] => by simp
  | x :: y, z :: t => by
    have ih := filter_count c d y t
    simp only [List.zip_cons_cons, List.filter_cons, List.countP_cons]
    by_cases h : x = c
    · simp only [h, decide_true, if_true, List.map_cons, List.countP_cons, ih, true_and]
    · simp only [h, decide_false, Bool.false_eq_true, if_false, ih, false_and, add_zero]

theorem filter_length (c : Int) : ∀ y t : List Int, y.length = t.length →
    (((y.zip t).filter (fun q => decide (q.1 = c))).map Prod.snd).length = y.countP (fun x => decide (x = c))
  | [], _, _ => by simp
  | _ :: _, [], h => by simp at h
  | x :: y, z :: t, h => by
    have ih := filter_length c y t (by simpa using h)
    simp only [List.length_map] at ih ⊢
    simp only [List.zip_cons_cons, List.filter_cons, List.countP_cons]
    by_cases hx : x = c
    · simp only [hx, decide_true, if_true, List.length_cons, ih]
    · simp only [hx, decide_false, Bool.false_eq_true, if_false, ih, add_zero]

/-- **C99**: the performance that `AlExperiment` records with `roc_auc_score` is the mean of the two recalls of the predicted labels. (It is not
the area under the curve of the model's scores, which the experiment never asks for.) -/
theorem C99_experiment_auc {a : Int} (ha : a = 0 ∨ a = -1) {y t : List Int} (h : y.length = t.length) (hy : ∀ c ∈ y, c = a ∨ c = 1)
    (ht : ∀ c ∈ t, c = a ∨ c = 1) (h1 : 1 ∈ y) (h0 : a ∈ y) :
    experimentAuc y t = .ok ((Spec.recallOf 1 y t + Spec.recallOf a y t) / 2) := by
  have ha1 : a < 1 := by rcases ha with rfl | rfl <;> norm_num
  have hne : ∀ c ∈ y, decide (c ≠ (none : Option Int).getD 1) = decide (c = a) := by
    intro c hc
    rcases hy c hc with rfl | rfl
    · simp [ha1.ne]
    · simp [ha1.ne']
  have hbin : binaryClasses y = true := by
    unfold binaryClasses
    have : y.isEmpty = false := by cases y with
      | nil => simp at h1
      | cons => rfl
    rcases ha with rfl | rfl
    · simp only [this, Bool.not_false, Bool.true_and, Bool.or_eq_true]
      left; rw [List.all_eq_true]; intro c hc
      rcases hy c hc with rfl | rfl <;> simp
    · simp only [this, Bool.not_false, Bool.true_and, Bool.or_eq_true]
      right; rw [List.all_eq_true]; intro c hc
      rcases hy c hc with rfl | rfl <;> simp
  have fN : (y.zip t).filter (fun q => decide (q.1 ≠ (none : Option Int).getD 1)) = (y.zip t).filter (fun q => decide (q.1 = a)) := by
    apply List.filter_congr
    intro q hq
    exact hne q.1 (List.of_mem_zip hq).1
  have eP : Spec.positives none y (t.map (fun (c : Int) => (c : ℚ))) =
      (((y.zip t).filter (fun q => decide (q.1 = 1))).map Prod.snd).map (fun (c : Int) => (c : ℚ)) := by
    unfold Spec.positives
    rw [scoresWith_cast, List.map_map]
    rfl
  have eN : Spec.negatives none y (t.map (fun (c : Int) => (c : ℚ))) =
      (((y.zip t).filter (fun q => decide (q.1 = a))).map Prod.snd).map (fun (c : Int) => (c : ℚ)) := by
    unfold Spec.negatives
    rw [scoresWith_cast, fN, List.map_map]
    rfl
  have lenP := filter_length 1 y t h
  have lenN := filter_length a y t h
  have neP : ((y.zip t).filter (fun q => decide (q.1 = 1))).map Prod.snd ≠ [] := by
    intro hc; rw [hc] at lenP
    have : 0 < y.countP (fun x => decide (x = 1)) := List.countP_pos_iff.2 ⟨1, h1, by simp⟩
    simp at lenP; omega
  have neN : ((y.zip t).filter (fun q => decide (q.1 = a))).map Prod.snd ≠ [] := by
    intro hc; rw [hc] at lenN
    have : 0 < y.countP (fun x => decide (x = a)) := List.countP_pos_iff.2 ⟨a, h0, by simp⟩
    simp at lenN; omega
  have mem : ∀ c : Int, ∀ x ∈ ((y.zip t).filter (fun q => decide (q.1 = c))).map Prod.snd, x = a ∨ x = 1 := by
    intro c x hx
    obtain ⟨q, hq, rfl⟩ := List.mem_map.1 hx
    exact ht q.2 (List.of_mem_zip (List.mem_filter.1 hq).1).2
  unfold experimentAuc
  rw [C38_auc (by simpa using h) (Or.inr (binaryClasses_iff.1 hbin)) (by rw [eP]; simpa using neP) (by rw [eN]; simpa using neN), eP, eN,
    pairStatistic_labels ha1 neP neN (mem 1) (mem a), filter_count, filter_count, lenP, lenN]
  rfl

example : calcPerformance (fun _ _ => .error .valueError) (.vec [1, 0, 0, 1]) (.labels (.vec [1, 0, 1, 1])) "accuracy_score" none none = .ok (.num (some (3 / 4))) := by
  decide +kernel

/-- Two examples with three labels, one label wrong. -/
example : calcPerformance (fun _ _ => .error .valueError) (.mat 3 [[1, 0, 1], [0, 0, 1]]) (.labels (.mat 3 [[1, 0, 1], [0, 1, 1]])) "accuracy_score" none none =
      .ok (.num (some (1 / 2))) ∧
    calcPerformance (fun _ _ => .error .valueError) (.mat 3 [[1, 0, 1], [0, 0, 1]]) (.labels (.mat 3 [[1, 0, 1], [0, 1, 1]])) "hamming_loss" none none =
      .ok (.num (some (1 / 6))) := by
  decide +kernel

/-- A perfect model, with its scores in one column and with its probabilities. -/
example : calcPerformance (fun _ _ => .error .valueError) (.vec [1, 0, 0, 1]) (.table 1 [[9/10], [2/10], [1/10], [8/10]]) "roc_auc_score" none none = .ok (.num (some 1)) ∧
    calcPerformance (fun _ _ => .error .valueError) (.vec [1, 0, 0, 1]) (.table 2 [[1/10, 9/10], [8/10, 2/10], [9/10, 1/10], [2/10, 8/10]]) "roc_auc_score" none none =
      .ok (.num (some 0)) := by
  decide +kernel

example : experimentAuc [1, 0, 0, 1] [1, 0, 1, 1] = .ok (3 / 4) := by decide +kernel

end Alipy.Perf

import Verif.Model.RankingMetrics
import Verif.Spec.MetricSymmetry
import Verif.Props.RankingMetrics
import Verif.Proof.Split
import Mathlib.Data.List.Flatten
/-!
# C96: the value of a metric depends neither on the order of the examples nor on that of the labels
-/
set_option linter.unusedSectionVars false
set_option linter.unusedSimpArgs false
namespace Alipy.MetricSymmetry
open Alipy.RankMetrics Alipy.Spec

variable {ι κ : Type}

/-! ## Auxiliary facts -/

theorem numUnique_perm {a b : List Int} (h : a.Perm b) : numUnique a = numUnique b := by
  unfold numUnique
  refine List.Perm.length_eq ((List.perm_ext_iff_of_nodup (eraseDups_nodup a) (eraseDups_nodup b)).2 (fun x => ?_))
  rw [List.mem_eraseDups, List.mem_eraseDups]
  exact h.mem_iff

theorem numUnique_inj {g : Int → Int} (hg : Function.Injective g) (a : List Int) : numUnique (a.map g) = numUnique a := by
  unfold numUnique
  rw [← List.length_map (f := g) (as := a.eraseDups)]
  refine List.Perm.length_eq ((List.perm_ext_iff_of_nodup (eraseDups_nodup _) ((eraseDups_nodup a).map hg)).2 (fun x => ?_))
  simp [List.mem_eraseDups]


theorem type_mat_eq {c : Nat} {a b : List (List Int)} (h : numUnique a.flatten = numUnique b.flatten) (hl : a.length = b.length) :
    typeOfTarget (.mat c a) = typeOfTarget (.mat c b) := by
  have he : a.isEmpty = b.isEmpty := by cases a <;> cases b <;> simp_all
  simp [typeOfTarget, Tgt.ravel, h, he]

theorem type_vec_eq {a b : List Int} (h : numUnique a = numUnique b) : typeOfTarget (.vec a) = typeOfTarget (.vec b) := by
  have e : ∀ l : List Int, typeOfTarget (.vec l) = if numUnique l ≤ 2 then .ok .binary else .ok .multiclass := fun _ => rfl
  rw [e, e, h]

theorem check_eq {a b a' b' : Tgt} (h1 : a.len = a'.len) (h2 : b.len = b'.len) (h3 : typeOfTarget a = typeOfTarget a')
    (h4 : typeOfTarget b = typeOfTarget b') : checkTargets a b = checkTargets a' b' := by
  unfold checkTargets
  rw [h3, h4, h1, h2]

theorem npAverage_none {xs ys : List ℚ} (h : xs.Perm ys) : npAverage xs none = npAverage ys none := by
  have he : xs.isEmpty = ys.isEmpty := by
    have := h.length_eq
    cases xs <;> cases ys <;> simp_all
  simp [npAverage, he, h.sum_eq, h.length_eq]

theorem npAverage_perm {l l' : List ι} (h : l.Perm l') (f : ι → ℚ) (w : Option (ι → ℚ)) :
    npAverage (l.map f) (weightsOf w l) = npAverage (l'.map f) (weightsOf w l') := by
  cases w with
  | none => exact npAverage_none (h.map f)
  | some w =>
    simp [npAverage, weightsOf, List.zipWith_map, List.zipWith_self, (h.map w).sum_eq, (h.map (fun a => f a * w a)).sum_eq]

theorem fit_of (w : Option (ι → ℚ)) (l : List ι) : weightsFit l.length (weightsOf w l) = true := by
  cases w <;> simp [weightsFit, weightsOf]

theorem table_length {α : Type} (f : ι → κ → α) (l : List ι) (J : List κ) : (tableOf f l J).length = l.length := by simp [tableOf]

theorem flatMap_perm {α : Type} {l l' : List ι} {J J' : List κ} (h : l.Perm l') (hJ : J.Perm J') (f : ι → κ → α) :
    (l.flatMap (fun i => J.map (f i))).Perm (l'.flatMap (fun i => J'.map (f i))) := by
  refine (h.flatMap_right _).trans ?_
  exact List.Perm.flatMap_left _ (fun i _ => hJ.map (f i))

theorem table_flatten {α : Type} (f : ι → κ → α) (l : List ι) (J : List κ) :
    (tableOf f l J).flatten = l.flatMap (fun i => J.map (f i)) := by
  simp [tableOf, List.flatMap_def]

theorem table_unique {l l' : List ι} {J J' : List κ} (h : l.Perm l') (hJ : J.Perm J') (f : ι → κ → Int) :
    numUnique (tableOf f l J).flatten = numUnique (tableOf f l' J').flatten := by
  rw [table_flatten, table_flatten]
  exact numUnique_perm (flatMap_perm h hJ f)

theorem table_type {l l' : List ι} {J J' : List κ} (h : l.Perm l') (hJ : J.Perm J') (f : ι → κ → Int) :
    typeOfTarget (.mat J.length (tableOf f l J)) = typeOfTarget (.mat J'.length (tableOf f l' J')) := by
  rw [hJ.length_eq]
  exact type_mat_eq (table_unique h hJ f) (by rw [table_length, table_length, h.length_eq])

theorem table_zipWith {α β γ : Type} (F : α → β → γ) (a : ι → κ → α) (b : ι → κ → β) (l : List ι) (J : List κ) :
    List.zipWith F (tableOf a l J).flatten (tableOf b l J).flatten = l.flatMap (fun i => J.map (fun j => F (a i j) (b i j))) := by
  rw [table_flatten, table_flatten]
  induction l with
  | nil => simp
  | cons i l ih =>
    simp only [List.flatMap_cons]
    rw [List.zipWith_append (by simp), ih, List.zipWith_map, List.zipWith_self]

theorem table_check {l l' : List ι} {J J' : List κ} (h : l.Perm l') (hJ : J.Perm J') (a b : ι → κ → Int) :
    checkTargets (.mat J.length (tableOf a l J)) (.mat J.length (tableOf b l J)) =
      checkTargets (.mat J'.length (tableOf a l' J')) (.mat J'.length (tableOf b l' J')) :=
  check_eq (by simp [Tgt.len, tableOf, h.length_eq]) (by simp [Tgt.len, tableOf, h.length_eq]) (table_type h hJ a) (table_type h hJ b)

theorem flat_length {α : Type} (f : ι → κ → α) (l : List ι) (J : List κ) : (tableOf f l J).flatten.length = l.length * J.length := by
  rw [table_flatten]
  induction l with
  | nil => simp
  | cons i l ih =>
    rw [List.flatMap_cons, List.length_append, ih, List.length_map, List.length_cons]
    ring

theorem accuracyFlat_table {l l' : List ι} {J J' : List κ} (h : l.Perm l') (hJ : J.Perm J') (a b : ι → κ → Int) (w : Option (ι → ℚ)) :
    accuracyFlat (tableOf a l J).flatten (tableOf b l J).flatten (weightsOf w l) =
      accuracyFlat (tableOf a l' J').flatten (tableOf b l' J').flatten (weightsOf w l') := by
  unfold accuracyFlat
  rw [table_zipWith, table_zipWith, flat_length, flat_length, flat_length, flat_length]
  cases w with
  | none =>
    simp only [weightsOf, Option.map_none, weightsFit, ne_eq, not_true, false_or]
    rw [if_neg (by simp), if_neg (by simp)]
    exact npAverage_none (flatMap_perm h hJ _)
  | some w =>
    by_cases hd : l.length = l.length * J.length
    · by_cases hl : l = []
      · subst hl
        have := h.nil_eq
        subst this
        simp [weightsOf]
      · have h1 : J.length = 1 := by
          have : 0 < l.length := List.length_pos_iff.2 hl
          have h2 : l.length * J.length = l.length * 1 := by omega
          exact Nat.eq_of_mul_eq_mul_left this h2
        obtain ⟨j, rfl⟩ := List.length_eq_one_iff.1 h1
        have : J' = [j] := List.perm_singleton.1 hJ.symm
        subst this
        have hfit : weightsFit (l.length * 1) (weightsOf (some w) l) = true := by rw [Nat.mul_one]; exact fit_of _ _
        have hfit' : weightsFit (l'.length * 1) (weightsOf (some w) l') = true := by rw [Nat.mul_one]; exact fit_of _ _
        simp only [List.length_singleton]
        rw [if_neg (by rw [hfit]; simp), if_neg (by rw [hfit']; simp)]
        have hm : ∀ l : List ι, l.flatMap (fun i => [j].map (fun j => ofBool (decide (a i j = b i j)))) =
            l.map (fun i => ofBool (decide (a i j = b i j))) := by
          intro l
          induction l with
          | nil => rfl
          | cons i l ih => rw [List.flatMap_cons, ih]; rfl
        rw [hm, hm]
        exact npAverage_perm h _ _
    · have hd' : ¬ l'.length = l'.length * J'.length := by rw [← h.length_eq, ← hJ.length_eq]; exact hd
      rw [if_pos, if_pos]
      · right; simp [weightsFit, weightsOf, hd']
      · right; simp [weightsFit, weightsOf, hd]

/-! ## Accuracy, zero-one loss, hamming loss -/

/-- **C96**, `accuracy_score` of label vectors: the examples may be listed in any order. -/
theorem C96_accuracy_vector {l l' : List ι} (h : l.Perm l') (a b : ι → Int) (w : Option (ι → ℚ)) :
    accuracyScore (.vec (l.map a)) (.vec (l.map b)) (weightsOf w l) =
      accuracyScore (.vec (l'.map a)) (.vec (l'.map b)) (weightsOf w l') := by
  have hc : checkTargets (.vec (l.map a)) (.vec (l.map b)) = checkTargets (.vec (l'.map a)) (.vec (l'.map b)) :=
    check_eq (by simp [Tgt.len, h.length_eq]) (by simp [Tgt.len, h.length_eq]) (type_vec_eq (numUnique_perm (h.map a)))
      (type_vec_eq (numUnique_perm (h.map b)))
  have hf : accuracyFlat (l.map a) (l.map b) (weightsOf w l) = accuracyFlat (l'.map a) (l'.map b) (weightsOf w l') := by
    unfold accuracyFlat
    rw [if_neg (by simp [fit_of]), if_neg (by simp [fit_of]), List.zipWith_map, List.zipWith_self, List.zipWith_map, List.zipWith_self]
    exact npAverage_perm h _ _
  unfold accuracyScore
  rw [hc]
  simp only [Tgt.ravel, hf]

/-- **C96**, `accuracy_score` of label matrices: the examples and the labels may be listed in any order. -/
theorem C96_accuracy_matrix {l l' : List ι} {J J' : List κ} (h : l.Perm l') (hJ : J.Perm J') (a b : ι → κ → Int) (w : Option (ι → ℚ)) :
    accuracyScore (.mat J.length (tableOf a l J)) (.mat J.length (tableOf b l J)) (weightsOf w l) =
      accuracyScore (.mat J'.length (tableOf a l' J')) (.mat J'.length (tableOf b l' J')) (weightsOf w l') := by
  have hm : npAverage (List.zipWith (fun r s => ofBool (decide (r = s))) (tableOf a l J) (tableOf b l J)) (weightsOf w l) =
      npAverage (List.zipWith (fun r s => ofBool (decide (r = s))) (tableOf a l' J') (tableOf b l' J')) (weightsOf w l') := by
    unfold tableOf
    rw [List.zipWith_map, List.zipWith_self, List.zipWith_map, List.zipWith_self]
    have : (fun i => ofBool (decide (J'.map (a i) = J'.map (b i)))) = (fun i => ofBool (decide (J.map (a i) = J.map (b i)))) := by
      funext i
      have : (J'.map (a i) = J'.map (b i)) ↔ (J.map (a i) = J.map (b i)) := by
        rw [List.map_inj_left, List.map_inj_left]
        exact ⟨fun k j hj => k j (hJ.mem_iff.1 hj), fun k j hj => k j (hJ.mem_iff.2 hj)⟩
      simp [this]
    rw [this]
    exact npAverage_perm h _ _
  unfold accuracyScore
  rw [table_check h hJ]
  simp only [Tgt.ravel, accuracyFlat_table h hJ, hm, table_length, fit_of]
  simp

/-- **C96**, `zero_one_loss` of label vectors. -/
theorem C96_zero_one_vector {l l' : List ι} (h : l.Perm l') (a b : ι → Int) (normalize : Bool) (w : Option (ι → ℚ)) :
    zeroOneLoss (.vec (l.map a)) (.vec (l.map b)) normalize (weightsOf w l) =
      zeroOneLoss (.vec (l'.map a)) (.vec (l'.map b)) normalize (weightsOf w l') := by
  unfold zeroOneLoss
  rw [C96_accuracy_vector h]
  cases w with
  | none => simp [weightsOf, Tgt.len, h.length_eq]
  | some w => simp [weightsOf, (h.map w).sum_eq]

/-- **C96**, `zero_one_loss` of label matrices. -/
theorem C96_zero_one_matrix {l l' : List ι} {J J' : List κ} (h : l.Perm l') (hJ : J.Perm J') (a b : ι → κ → Int) (normalize : Bool)
    (w : Option (ι → ℚ)) :
    zeroOneLoss (.mat J.length (tableOf a l J)) (.mat J.length (tableOf b l J)) normalize (weightsOf w l) =
      zeroOneLoss (.mat J'.length (tableOf a l' J')) (.mat J'.length (tableOf b l' J')) normalize (weightsOf w l') := by
  unfold zeroOneLoss
  rw [C96_accuracy_matrix h hJ]
  cases w with
  | none => simp [weightsOf, Tgt.len, h.length_eq, table_length]
  | some w => simp [weightsOf, (h.map w).sum_eq]

/-- **C96**, `hamming_loss` of label vectors. -/
theorem C96_hamming_vector {l l' : List ι} (h : l.Perm l') (a b : ι → Int) :
    hammingLoss (.vec (l.map a)) (.vec (l.map b)) = hammingLoss (.vec (l'.map a)) (.vec (l'.map b)) := by
  have hc : checkTargets (.vec (l.map a)) (.vec (l.map b)) = checkTargets (.vec (l'.map a)) (.vec (l'.map b)) :=
    check_eq (by simp [Tgt.len, h.length_eq]) (by simp [Tgt.len, h.length_eq]) (type_vec_eq (numUnique_perm (h.map a)))
      (type_vec_eq (numUnique_perm (h.map b)))
  have hz : ∀ l : List ι, (l.map a).zip (l.map b) = l.map (fun i => (a i, b i)) := by
    intro l
    rw [List.zip_map', ]
  have hn : neCount (.vec (l.map a)) (.vec (l.map b)) = neCount (.vec (l'.map a)) (.vec (l'.map b)) := by
    simp only [neCount]
    rw [hz, hz, (h.map _).countP_eq]
  unfold hammingLoss
  rw [hc, hn]
  simp [Tgt.len, h.length_eq]

/-- **C96**, `hamming_loss` of label matrices. -/
theorem C96_hamming_matrix {l l' : List ι} {J J' : List κ} (h : l.Perm l') (hJ : J.Perm J') (a b : ι → κ → Int) :
    hammingLoss (.mat J.length (tableOf a l J)) (.mat J.length (tableOf b l J)) =
      hammingLoss (.mat J'.length (tableOf a l' J')) (.mat J'.length (tableOf b l' J')) := by
  have hn : neCount (.mat J.length (tableOf a l J)) (.mat J.length (tableOf b l J)) =
      neCount (.mat J'.length (tableOf a l' J')) (.mat J'.length (tableOf b l' J')) := by
    simp only [neCount, List.zip, table_zipWith, if_true]
    rw [(flatMap_perm h hJ (fun i j => (a i j, b i j))).countP_eq]
  unfold hammingLoss
  rw [table_check h hJ, hn]
  cases checkTargets (.mat J'.length (tableOf a l' J')) (.mat J'.length (tableOf b l' J')) with
  | error e => rfl
  | ok t => cases t <;> simp [Tgt.len, table_length, h.length_eq, hJ.length_eq]

/-! ## The ROC curve -/

/-- Sorting by the second component: the second components do not depend on the order of the list. -/
theorem sorted_snd {L L' : List (Bool × ℚ)} (h : L.Perm L') :
    (sortBy (fun p q => decide (p.2 ≤ q.2)) L).map Prod.snd = (sortBy (fun p q => decide (p.2 ≤ q.2)) L').map Prod.snd := by
  have hs : ∀ L : List (Bool × ℚ), ((sortBy (fun p q => decide (p.2 ≤ q.2)) L).map Prod.snd).Pairwise (· ≤ ·) := by
    intro L
    rw [List.pairwise_map]
    refine (sortBy_sorted _ ?_ ?_ L).imp (fun h => by simpa using h)
    · intro a b; simpa using le_total a.2 b.2
    · intro a b c h1 h2; simp at *; exact le_trans h1 h2
  refine List.Perm.eq_of_pairwise' (hs L) (hs L') ?_
  exact (((sortBy_perm _ L).trans h).trans (sortBy_perm _ L').symm).map _

theorem zip_perm {l l' : List ι} (h : l.Perm l') (y : ι → Int) (s : ι → ℚ) (p : Int) :
    (((l.map y).map (fun c => decide (c = p))).zip (l.map s)).Perm (((l'.map y).map (fun c => decide (c = p))).zip (l'.map s)) := by
  rw [List.map_map, List.map_map, List.zip_map', List.zip_map']
  exact h.map _

theorem binaryClasses_perm {a b : List Int} (h : a.Perm b) : binaryClasses a = binaryClasses b := by
  unfold binaryClasses
  have he : a.isEmpty = b.isEmpty := by
    have := h.length_eq
    cases a <;> cases b <;> simp_all
  have ha : ∀ p : Int → Bool, a.all p = b.all p := by
    intro p
    rw [Bool.eq_iff_iff, List.all_eq_true, List.all_eq_true]
    exact ⟨fun k x hx => k x (h.mem_iff.2 hx), fun k x hx => k x (h.mem_iff.1 hx)⟩
  simp [he, ha]

theorem fpsTps_perm {l l' : List ι} (h : l.Perm l') (y : ι → Int) (s : ι → ℚ) (pos : Option Int) :
    fpsTps (l.map y) (l.map s) pos = fpsTps (l'.map y) (l'.map s) pos := by
  have hz := zip_perm h y s (pos.getD 1)
  have hs := sorted_snd hz
  have key : ∀ D D' : List (Bool × ℚ), D.Perm D' → D.map Prod.snd = D'.map Prod.snd →
      D.map (fun t => (D.countP (fun p => !p.1 && decide (t.2 ≤ p.2)), D.countP (fun p => p.1 && decide (t.2 ≤ p.2)))) =
        D'.map (fun t => (D'.countP (fun p => !p.1 && decide (t.2 ≤ p.2)), D'.countP (fun p => p.1 && decide (t.2 ≤ p.2)))) := by
    intro D D' hp he
    have e : ∀ E : List (Bool × ℚ), E.map (fun t => (D'.countP (fun p => !p.1 && decide (t.2 ≤ p.2)), D'.countP (fun p => p.1 && decide (t.2 ≤ p.2)))) =
        (E.map Prod.snd).map (fun v => (D'.countP (fun p => !p.1 && decide (v ≤ p.2)), D'.countP (fun p => p.1 && decide (v ≤ p.2)))) := by
      intro E
      rw [List.map_map]
      rfl
    simp only [hp.countP_eq]
    rw [e, e, he]
  unfold fpsTps
  rw [binaryClasses_perm (h.map y)]
  simp only [List.length_map, ne_eq, not_true, if_false]
  split
  · rfl
  · congr 1
    refine key _ _ ?_ (by rw [List.map_reverse, List.map_reverse, hs])
    exact (List.reverse_perm _).trans ((((sortBy_perm _ _).trans hz).trans (sortBy_perm _ _).symm).trans (List.reverse_perm _).symm)

/-- **C96**, `roc_auc_score` (and the points of `roc_curve`): the examples may be listed in any order. -/
theorem C96_roc_auc {l l' : List ι} (h : l.Perm l') (y : ι → Int) (s : ι → ℚ) (pos : Option Int) :
    rocCurve (l.map y) (l.map s) pos = rocCurve (l'.map y) (l'.map s) pos ∧
      rocAucScore (l.map y) (l.map s) pos = rocAucScore (l'.map y) (l'.map s) pos := by
  have : rocCurve (l.map y) (l.map s) pos = rocCurve (l'.map y) (l'.map s) pos := by
    unfold rocCurve
    rw [fpsTps_perm h]
  refine ⟨this, ?_⟩
  unfold rocAucScore
  rw [this]

/-- **C96**, `precision_recall_curve`. -/
theorem C96_precision_recall {l l' : List ι} (h : l.Perm l') (y : ι → Int) (s : ι → ℚ) (pos : Option Int) :
    precisionRecallCurve (l.map y) (l.map s) pos = precisionRecallCurve (l'.map y) (l'.map s) pos := by
  have ht : thresholds (l.map y) (l.map s) pos = thresholds (l'.map y) (l'.map s) pos := by
    unfold thresholds
    rw [List.map_reverse, List.map_reverse, sorted_snd (zip_perm h y s _)]
  unfold precisionRecallCurve
  rw [fpsTps_perm h, ht]

/-! ## The multi-label ranking metrics -/

theorem scoresWith_map (P : Int → Bool) (y : κ → Int) (s : κ → ℚ) (J : List κ) :
    Spec.scoresWith P (J.map y) (J.map s) = (J.filter (fun j => P (y j))).map s := by
  unfold Spec.scoresWith
  rw [List.zip_map', List.filter_map, List.map_map]
  rfl

theorem relevant_map (y : κ → Int) (s : κ → ℚ) (J : List κ) :
    relevantScores (J.map y) (J.map s) = (J.filter (fun j => decide (y j ≠ 0))).map s := scoresWith_map (fun c => decide (c ≠ 0)) y s J

theorem relevant_perm {J J' : List κ} (hJ : J.Perm J') (y : κ → Int) (s : κ → ℚ) :
    (relevantScores (J.map y) (J.map s)).Perm (relevantScores (J'.map y) (J'.map s)) := by
  rw [relevant_map, relevant_map]
  exact (hJ.filter _).map s

theorem uniqueSorted_perm {a b : List ℚ} (h : a.Perm b) : uniqueSorted a = uniqueSorted b := by
  have hs : ∀ L : List ℚ, (sortBy (fun p q => decide (p ≤ q)) L).Pairwise (· ≤ ·) := by
    intro L
    refine (sortBy_sorted _ ?_ ?_ L).imp (fun h => by simpa using h)
    · intro a b; simpa using le_total a b
    · intro a b c h1 h2; simp at *; exact le_trans h1 h2
  unfold uniqueSorted
  rw [List.Perm.eq_of_pairwise' (hs a) (hs b) (((sortBy_perm _ a).trans h).trans (sortBy_perm _ b).symm)]

theorem binCount_perm (u : List ℚ) {a b : List ℚ} (h : a.Perm b) : binCount u a = binCount u b := by
  unfold binCount
  simp only [h.countP_eq]

theorem rankingLossRow_perm {J J' : List κ} (hJ : J.Perm J') (y : κ → Int) (s : κ → ℚ) :
    rankingLossRow (J.map y) (J.map s) = rankingLossRow (J'.map y) (J'.map s) := by
  have hr := relevant_perm hJ y s
  unfold rankingLossRow rankingCount
  simp only [hr.length_eq, uniqueSorted_perm (hJ.map s), binCount_perm _ hr, binCount_perm _ (hJ.map s), List.length_map, hJ.length_eq]

theorem reach_perm {a b : List ℚ} (h : a.Perm b) (t : ℚ) : reach a t = reach b t := h.countP_eq _

theorem isCoverage_perm {rel rel' all all' : List ℚ} (hr : rel.Perm rel') (ha : all.Perm all') {d : Nat} (h : IsCoverage rel all d) :
    IsCoverage rel' all' d := by
  obtain ⟨h1, h2⟩ := h
  refine ⟨fun r hr' => ?_, ?_⟩
  · rw [← reach_perm ha]
    exact h1 r (hr.mem_iff.2 hr')
  · rcases h2 with ⟨rfl, rfl⟩ | ⟨r, hm, he⟩
    · exact .inl ⟨hr.nil_eq.symm, rfl⟩
    · exact .inr ⟨r, hr.mem_iff.1 hm, by rw [← reach_perm ha]; exact he⟩

theorem coverageRow_perm {J J' : List κ} (hJ : J.Perm J') (y : κ → Int) (s : κ → ℚ) :
    coverageRow (J.map y) (J.map s) = coverageRow (J'.map y) (J'.map s) := by
  refine C64_unique (isCoverage_perm (relevant_perm hJ y s) (hJ.map s) ?_) (coverageRow_spec (J'.map y) (J'.map s))
  exact coverageRow_spec (J.map y) (J.map s)

theorem avgPrecision_perm {rel rel' all all' : List ℚ} (hr : rel.Perm rel') (ha : all.Perm all') :
    avgPrecision rel all = avgPrecision rel' all' := by
  unfold avgPrecision
  have hp : precisionAt rel all = precisionAt rel' all' := by
    funext t
    unfold precisionAt
    rw [reach_perm hr, reach_perm ha]
  rw [hp, (hr.map _).sum_eq, hr.length_eq]
  by_cases h : rel = []
  · subst h
    have := hr.nil_eq
    subst this
    rfl
  · rw [if_neg h, if_neg (fun h' => h (by subst h'; exact hr.eq_nil))]

theorem lrapTerm_perm {J J' : List κ} (hJ : J.Perm J') (y : κ → Int) (s : κ → ℚ) (w : Option ℚ) :
    lrapTerm J.length w (J.map y) (J.map s) = lrapTerm J'.length w (J'.map y) (J'.map s) := by
  have hp : (((J.map y).filter (fun c => decide (c ≠ 0)))).length = (((J'.map y).filter (fun c => decide (c ≠ 0)))).length :=
    ((hJ.map y).filter _).length_eq
  unfold lrapTerm
  simp only
  rw [hp, hJ.length_eq]
  split
  · rfl
  · rename_i hn
    have hne : ∀ J : List κ, ((J.map y).filter (fun c => decide (c ≠ 0))).length ≠ 0 →
        Spec.scoresWith (fun c => decide (c ≠ 0)) (J.map y) (J.map s) ≠ [] := by
      intro J h0 he
      apply h0
      rw [← scoresWith_length _ (J.map y) (J.map s) (by simp), he]
      rfl
    have h0 : ¬ (((J'.map y).filter (fun c => decide (c ≠ 0)))).length = 0 := fun h => hn (.inl h)
    have : rankedPrecision (J.map y) (J.map s) = rankedPrecision (J'.map y) (J'.map s) := by
      rw [rankedPrecision_eq _ _ (hne J (by rw [hp]; exact h0)), rankedPrecision_eq _ _ (hne J' h0)]
      exact avgPrecision_perm (relevant_perm hJ y s) (hJ.map s)
    rw [this]

theorem lrapSum_table (c : Nat) (Y : ι → List Int) (S : ι → List ℚ) (w : Option (ι → ℚ)) (l : List ι) :
    lrapSum c (weightsOf w l) (l.map Y) (l.map S) = (l.map (fun i => lrapTerm c (w.map (fun f => f i)) (Y i) (S i))).sum := by
  induction l with
  | nil => cases w <;> simp [lrapSum, weightsOf]
  | cons i l ih =>
    cases w with
    | none => simpa [lrapSum, weightsOf] using ih
    | some w => simpa [lrapSum, weightsOf] using ih

theorem checkScores_perm {l l' : List ι} {J J' : List κ} (h : l.Perm l') (hJ : J.Perm J') (y : ι → κ → Int) (s : ι → κ → ℚ)
    (w : Option (ι → ℚ)) :
    checkScores J.length (tableOf y l J) J.length (tableOf s l J) (weightsOf w l) =
      checkScores J'.length (tableOf y l' J') J'.length (tableOf s l' J') (weightsOf w l') := by
  unfold checkScores
  rw [table_type h hJ]
  simp [table_length, fit_of]

/-- **C96**, `one_error`. -/
theorem C96_one_error {l l' : List ι} {J J' : List κ} (h : l.Perm l') (hJ : J.Perm J') (y : ι → κ → Int) (p : ι → κ → ℚ)
    (w : Option (ι → ℚ)) :
    oneError J.length (tableOf y l J) (tableOf p l J) (weightsOf w l) =
      oneError J'.length (tableOf y l' J') (tableOf p l' J') (weightsOf w l') := by
  have hz : ((List.zipWith sameSum (tableOf y l J) (tableOf p l J)).countP id) =
      ((List.zipWith sameSum (tableOf y l' J') (tableOf p l' J')).countP id) := by
    unfold tableOf
    rw [List.zipWith_map, List.zipWith_self, List.zipWith_map, List.zipWith_self]
    have : (fun i => sameSum (J.map (y i)) (J.map (p i))) = (fun i => sameSum (J'.map (y i)) (J'.map (p i))) := by
      funext i
      unfold sameSum
      rw [List.zipWith_map, List.zipWith_self, List.zipWith_map, List.zipWith_self, (hJ.map _).sum_eq]
    rw [this, (h.map _).countP_eq]
  unfold oneError
  rw [table_type h hJ, hz]
  simp only [table_length, fit_of, ne_eq, not_true, false_or]
  rw [h.length_eq]

theorem table_shape (s : ι → κ → ℚ) (l : List ι) (J : List κ) :
    (tableOf s l J).any (fun r => decide (r.length ≠ J.length)) = false := by
  simp [tableOf]

/-- **C96**, `label_ranking_loss`. -/
theorem C96_ranking_loss {l l' : List ι} {J J' : List κ} (h : l.Perm l') (hJ : J.Perm J') (y : ι → κ → Int) (s : ι → κ → ℚ)
    (w : Option (ι → ℚ)) :
    labelRankingLoss J.length (tableOf y l J) (tableOf s l J) (weightsOf w l) =
      labelRankingLoss J'.length (tableOf y l' J') (tableOf s l' J') (weightsOf w l') := by
  have hz : npAverage (List.zipWith rankingLossRow (tableOf y l J) (tableOf s l J)) (weightsOf w l) =
      npAverage (List.zipWith rankingLossRow (tableOf y l' J') (tableOf s l' J')) (weightsOf w l') := by
    unfold tableOf
    rw [List.zipWith_map, List.zipWith_self, List.zipWith_map, List.zipWith_self]
    simp only [rankingLossRow_perm hJ]
    exact npAverage_perm h _ _
  unfold labelRankingLoss
  rw [table_type h hJ, hz, table_shape, table_shape]
  simp [table_length, fit_of]

/-- **C96**, `coverage_error`. -/
theorem C96_coverage {l l' : List ι} {J J' : List κ} (h : l.Perm l') (hJ : J.Perm J') (y : ι → κ → Int) (s : ι → κ → ℚ)
    (w : Option (ι → ℚ)) :
    coverageError J.length (tableOf y l J) (tableOf s l J) (weightsOf w l) =
      coverageError J'.length (tableOf y l' J') (tableOf s l' J') (weightsOf w l') := by
  have hz : npAverage (List.zipWith (fun r t => (coverageRow r t : ℚ)) (tableOf y l J) (tableOf s l J)) (weightsOf w l) =
      npAverage (List.zipWith (fun r t => (coverageRow r t : ℚ)) (tableOf y l' J') (tableOf s l' J')) (weightsOf w l') := by
    unfold tableOf
    rw [List.zipWith_map, List.zipWith_self, List.zipWith_map, List.zipWith_self]
    simp only [coverageRow_perm hJ]
    exact npAverage_perm h _ _
  unfold coverageError
  rw [table_type h hJ, hz]
  simp [table_length, fit_of]

/-- **C96**, `label_ranking_average_precision_score`. -/
theorem C96_lrap {l l' : List ι} {J J' : List κ} (h : l.Perm l') (hJ : J.Perm J') (y : ι → κ → Int) (s : ι → κ → ℚ)
    (w : Option (ι → ℚ)) :
    lrapScore J.length (tableOf y l J) J.length (tableOf s l J) (weightsOf w l) =
      lrapScore J'.length (tableOf y l' J') J'.length (tableOf s l' J') (weightsOf w l') := by
  have hz : lrapSum J.length (weightsOf w l) (tableOf y l J) (tableOf s l J) =
      lrapSum J'.length (weightsOf w l') (tableOf y l' J') (tableOf s l' J') := by
    unfold tableOf
    rw [lrapSum_table, lrapSum_table]
    simp only [lrapTerm_perm hJ]
    exact (h.map _).sum_eq
  unfold lrapScore
  rw [checkScores_perm h hJ]
  cases w with
  | none =>
    simp only [weightsOf, Option.map_none] at hz ⊢
    rw [hz, table_length, table_length, h.length_eq]
  | some w =>
    simp only [weightsOf, Option.map_some] at hz ⊢
    rw [hz, (h.map w).sum_eq]

/-! ## `micro_auc_score` -/

/-- The sum of results, or the first exception. -/
def sumE : List (Except PyErr ℚ) → Except PyErr ℚ
  | [] => .ok 0
  | .error e :: _ => .error e
  | .ok a :: xs =>
    match sumE xs with
    | .error e => .error e
    | .ok b => .ok (a + b)

theorem aucSum_eq (y : List (List Int)) (s : List (List ℚ)) (js : List Nat) :
    aucSum y s js = sumE (js.map (fun j => classAuc (RankMetrics.column 0 y j) (RankMetrics.column 0 s j))) := by
  induction js with
  | nil => rfl
  | cons j js ih =>
    rw [List.map_cons, aucSum, ih]
    cases classAuc (RankMetrics.column 0 y j) (RankMetrics.column 0 s j) <;> rfl

theorem sumE_err {xs : List (Except PyErr ℚ)} {e : PyErr} (h : sumE xs = .error e) : .error e ∈ xs := by
  induction xs with
  | nil => simp [sumE] at h
  | cons x xs ih =>
    cases x with
    | error e' => simp only [sumE, Except.error.injEq] at h; simp [h]
    | ok a =>
      rw [sumE] at h
      cases hs : sumE xs with
      | error e' => rw [hs] at h; simp only [Except.error.injEq] at h; subst h; exact List.mem_cons_of_mem _ (ih hs)
      | ok b => rw [hs] at h; simp at h

theorem sumE_perm (e0 : PyErr) {xs ys : List (Except PyErr ℚ)} (h : xs.Perm ys) (he : ∀ e, .error e ∈ xs → e = e0) :
    sumE xs = sumE ys := by
  induction h with
  | nil => rfl
  | cons x _ ih =>
    have := ih (fun e hm => he e (List.mem_cons_of_mem _ hm))
    cases x <;> simp [sumE, this]
  | swap x y l =>
    cases x with
    | error e =>
      cases y with
      | error e' => simp [sumE, he e (by simp), he e' (by simp)]
      | ok b => simp [sumE]
    | ok a =>
      cases y with
      | error e' => simp [sumE]
      | ok b =>
        simp only [sumE]
        cases sumE l with
        | error e => rfl
        | ok c => simp; ring
  | trans h1 _ ih1 ih2 =>
    rw [ih1 he]
    exact ih2 (fun e hm => he e (h1.mem_iff.2 hm))

theorem classScores_map (b : Bool) (y : ι → Int) (s : ι → ℚ) (l : List ι) :
    RankMetrics.classScores b (l.map y) (l.map s) = (l.filter (fun i => decide (y i = 1) == b)).map s := by
  unfold RankMetrics.classScores
  rw [List.zip_map', List.filter_map, List.map_map]
  rfl

theorem classAuc_perm {l l' : List ι} (h : l.Perm l') (y : ι → Int) (s : ι → ℚ) :
    classAuc (l.map y) (l.map s) = classAuc (l'.map y) (l'.map s) := by
  have hp : ∀ b, (RankMetrics.classScores b (l.map y) (l.map s)).Perm (RankMetrics.classScores b (l'.map y) (l'.map s)) := by
    intro b
    rw [classScores_map, classScores_map]
    exact (h.filter _).map s
  unfold classAuc
  simp only [(hp true).length_eq, (hp false).length_eq, (hp false).countP_eq, ((hp true).map _).sum_eq]

theorem classAuc_err {y : List Int} {s : List ℚ} {e : PyErr} (h : classAuc y s = .error e) : e = .zeroDivisionError := by
  unfold classAuc at h
  simp only at h
  split at h
  · simpa using h.symm
  · simp at h

theorem column_table {α : Type} (d : α) (f : ι → κ → α) (l : List ι) (J : List κ) (j : Nat) (hj : j < J.length) :
    RankMetrics.column d (tableOf f l J) j = l.map (fun i => f i J[j]) := by
  unfold RankMetrics.column tableOf
  rw [List.map_map]
  refine List.map_congr_left (fun i _ => ?_)
  simp [List.getD_eq_getElem?_getD, hj]

theorem aucSum_table (y : ι → κ → Int) (s : ι → κ → ℚ) (l : List ι) (J : List κ) :
    aucSum (tableOf y l J) (tableOf s l J) (List.range J.length) =
      sumE (J.map (fun k => classAuc (l.map (fun i => y i k)) (l.map (fun i => s i k)))) := by
  rw [aucSum_eq]
  congr 1
  refine List.ext_getElem (by simp) (fun n h1 h2 => ?_)
  have hn : n < J.length := by simpa using h1
  simp [column_table _ _ _ _ _ hn]

/-- **C96**, `micro_auc_score`. -/
theorem C96_micro_auc {l l' : List ι} {J J' : List κ} (h : l.Perm l') (hJ : J.Perm J') (y : ι → κ → Int) (s : ι → κ → ℚ)
    (w : Option (ι → ℚ)) :
    microAuc J.length (tableOf y l J) J.length (tableOf s l J) (weightsOf w l) =
      microAuc J'.length (tableOf y l' J') J'.length (tableOf s l' J') (weightsOf w l') := by
  unfold microAuc
  rw [checkScores_perm h hJ, aucSum_table, aucSum_table]
  have : sumE (J.map (fun k => classAuc (l.map (fun i => y i k)) (l.map (fun i => s i k)))) =
      sumE (J'.map (fun k => classAuc (l'.map (fun i => y i k)) (l'.map (fun i => s i k)))) := by
    have e : (fun k => classAuc (l.map (fun i => y i k)) (l.map (fun i => s i k))) =
        (fun k => classAuc (l'.map (fun i => y i k)) (l'.map (fun i => s i k))) := by
      funext k
      exact classAuc_perm h _ _
    rw [e]
    refine sumE_perm .zeroDivisionError (hJ.map _) (fun e he => ?_)
    obtain ⟨k, _, hk⟩ := List.mem_map.1 he
    exact classAuc_err hk
  rw [this, hJ.length_eq]

/-! ## `average_precision_score` -/

theorem samplePrecision_none {c : Nat} {y : List Int} {s : List ℚ} (hl : y.length = s.length)
    (h : Spec.scoresWith (fun c => decide (c = 1)) y s = []) : RankMetrics.samplePrecision c y s = 0 := by
  rw [scoresWith_positions _ _ _ hl, List.map_eq_nil_iff] at h
  unfold RankMetrics.samplePrecision
  simp only [h, List.map_nil, List.sum_nil, zero_div]

theorem samplePrecision_perm {J J' : List κ} (hJ : J.Perm J') (y : κ → Int) (s : κ → ℚ) (hn : (J.map s).Nodup) :
    RankMetrics.samplePrecision J.length (J.map y) (J.map s) = RankMetrics.samplePrecision J'.length (J'.map y) (J'.map s) := by
  have hp : (Spec.scoresWith (fun c => decide (c = 1)) (J.map y) (J.map s)).Perm
      (Spec.scoresWith (fun c => decide (c = 1)) (J'.map y) (J'.map s)) := by
    rw [scoresWith_map, scoresWith_map]
    exact (hJ.filter _).map s
  have hn' : (J'.map s).Nodup := (hJ.map s).nodup_iff.1 hn
  by_cases h0 : Spec.scoresWith (fun c => decide (c = 1)) (J.map y) (J.map s) = []
  · rw [samplePrecision_none (by simp) h0]
    rw [h0] at hp
    rw [samplePrecision_none (by simp) hp.nil_eq.symm]
  · have e := samplePrecision_eq (y := J.map y) (s := J.map s) (by simp) hn h0
    have e' := samplePrecision_eq (y := J'.map y) (s := J'.map s) (by simp) hn' (fun h' => h0 (by rw [h'] at hp; exact hp.eq_nil))
    rw [List.length_map] at e e'
    rw [e, e']
    exact avgPrecision_perm hp (hJ.map s)

theorem average_table (c : Nat) (Y : ι → List Int) (S : ι → List ℚ) (l : List ι) :
    ((((l.map Y).zip (l.map S)).filter (fun p => isMixed c p.1)).map (fun p => RankMetrics.samplePrecision c p.1 p.2)).sum =
      ((l.filter (fun i => isMixed c (Y i))).map (fun i => RankMetrics.samplePrecision c (Y i) (S i))).sum := by
  rw [List.zip_map', List.filter_map, List.map_map]
  rfl

/-- **C96**, `average_precision_score`: the examples may be listed in any order. -/
theorem C96_average_precision_examples {l l' : List ι} (h : l.Perm l') (J : List κ) (y : ι → κ → Int) (s : ι → κ → ℚ) (w : Option (ι → ℚ)) :
    averagePrecision J.length (tableOf y l J) J.length (tableOf s l J) (weightsOf w l) =
      averagePrecision J.length (tableOf y l' J) J.length (tableOf s l' J) (weightsOf w l') := by
  unfold averagePrecision
  rw [checkScores_perm h (List.Perm.refl J), table_length, table_length, h.length_eq]
  unfold tableOf
  rw [average_table, average_table, ((h.filter _).map _).sum_eq]

/-- **C96**, `average_precision_score`: the labels may be listed in any order if no example has two labels of the same score. Without the
hypothesis `hd` this is false, see `C96_average_precision_violation`. -/
theorem C96_average_precision_labels_partial (l : List ι) {J J' : List κ} (hJ : J.Perm J') (y : ι → κ → Int) (s : ι → κ → ℚ)
    (hd : ∀ i ∈ l, (J.map (s i)).Nodup) (w : Option (ι → ℚ)) :
    averagePrecision J.length (tableOf y l J) J.length (tableOf s l J) (weightsOf w l) =
      averagePrecision J'.length (tableOf y l J') J'.length (tableOf s l J') (weightsOf w l) := by
  unfold averagePrecision
  rw [checkScores_perm (List.Perm.refl l) hJ, table_length, table_length]
  unfold tableOf
  rw [average_table, average_table]
  have hm : (fun i => isMixed J.length (J.map (y i))) = (fun i => isMixed J'.length (J'.map (y i))) := by
    funext i
    unfold isMixed
    rw [(hJ.map (y i)).sum_eq, hJ.length_eq]
  rw [hm]
  have : (l.filter (fun i => isMixed J'.length (J'.map (y i)))).map (fun i => RankMetrics.samplePrecision J.length (J.map (y i)) (J.map (s i))) =
      (l.filter (fun i => isMixed J'.length (J'.map (y i)))).map (fun i => RankMetrics.samplePrecision J'.length (J'.map (y i)) (J'.map (s i))) :=
    List.map_congr_left (fun i hi => samplePrecision_perm hJ _ _ (hd i (List.mem_of_mem_filter hi)))
  rw [this]

/-- **C96**, negative: one example whose labels all have the same score, one of them relevant. The average precision depends on where the
relevant label is listed: no two places give the same. -/
theorem C96_average_precision_violation (t : ℚ) {c k l : Nat} (hk : k < c) (hl : l < c) (hkl : k ≠ l) :
    ((List.replicate c (0 : Int)).set k 1).Perm ((List.replicate c 0).set l 1) ∧
      averagePrecision c [(List.replicate c 0).set k 1] c [List.replicate c t] none ≠
        averagePrecision c [(List.replicate c 0).set l 1] c [List.replicate c t] none := by
  constructor
  · have e : ∀ m < c, ((List.replicate c (0 : Int)).set m 1).Perm (1 :: List.replicate (c - 1) 0) := by
      intro m hm
      have : (List.replicate c (0 : Int)).set m 1 = List.replicate m 0 ++ 1 :: List.replicate (c - m - 1) 0 := by
        conv_lhs => rw [show c = m + ((c - m - 1) + 1) by omega, List.replicate_add]
        rw [List.set_append_right _ _ (by simp)]
        simp [List.replicate_succ]
      rw [this, show c - 1 = m + (c - m - 1) by omega, List.replicate_add]
      exact List.perm_middle
    exact (e k hk).trans (e l hl).symm
  · rw [(C65_ties_violation t hk (by omega)).1, (C65_ties_violation t hl (by omega)).1]
    intro h
    have h := Except.ok.inj h
    rw [one_div, one_div, inv_inj, Nat.cast_inj] at h
    omega

/-- Two labels: 1/2 if the relevant one is listed first, 1 if it is listed last. -/
example : averagePrecision 2 [[1, 0]] 2 [[3, 3]] none = .ok (1 / 2) ∧ averagePrecision 2 [[0, 1]] 2 [[3, 3]] none = .ok 1 := by decide +kernel

/-! ## Strictly increasing transformations of the scores -/

theorem insertBy_map {α β : Type} (g : α → β) (le : α → α → Bool) (le' : β → β → Bool) (h : ∀ a b, le' (g a) (g b) = le a b) (a : α)
    (l : List α) : insertBy le' (g a) (l.map g) = (insertBy le a l).map g := by
  induction l with
  | nil => rfl
  | cons b l ih =>
    rw [List.map_cons, insertBy, insertBy, h, ih]
    split <;> rfl

theorem sortBy_map {α β : Type} (g : α → β) (le : α → α → Bool) (le' : β → β → Bool) (h : ∀ a b, le' (g a) (g b) = le a b) (l : List α) :
    sortBy le' (l.map g) = (sortBy le l).map g := by
  induction l with
  | nil => rfl
  | cons a l ih => rw [List.map_cons, sortBy, ih, insertBy_map g le le' h, sortBy]

theorem fpsTps_mono {f : ℚ → ℚ} (hf : StrictMono f) (y : List Int) (s : List ℚ) (pos : Option Int) :
    fpsTps y (s.map f) pos = fpsTps y s pos := by
  have hz : (y.map (fun c => decide (c = pos.getD 1))).zip (s.map f) =
      ((y.map (fun c => decide (c = pos.getD 1))).zip s).map (fun p => (p.1, f p.2)) := by
    rw [List.zip_map_right]
    rfl
  unfold fpsTps
  rw [hz, sortBy_map (fun p : Bool × ℚ => (p.1, f p.2)) (fun p q => decide (p.2 ≤ q.2)) _ (fun a b => by simp [hf.le_iff_le])]
  simp only [← List.map_reverse, List.map_map, Function.comp_def, List.countP_map, hf.le_iff_le, List.length_map]

/-- **C96**: `roc_auc_score` depends on the order of the scores only. -/
theorem C96_roc_auc_monotone {f : ℚ → ℚ} (hf : StrictMono f) (y : List Int) (s : List ℚ) (pos : Option Int) :
    rocCurve y (s.map f) pos = rocCurve y s pos ∧ rocAucScore y (s.map f) pos = rocAucScore y s pos := by
  have : rocCurve y (s.map f) pos = rocCurve y s pos := by
    unfold rocCurve
    rw [fpsTps_mono hf]
  exact ⟨this, by unfold rocAucScore; rw [this]⟩

theorem relevant_mono (f : ℚ → ℚ) (y : List Int) (s : List ℚ) : relevantScores y (s.map f) = (relevantScores y s).map f :=
  filter_zip_map (fun c => decide (c ≠ 0)) f y s

theorem eraseDups_map {f : ℚ → ℚ} (hf : Function.Injective f) : ∀ l : List ℚ, (l.map f).eraseDups = l.eraseDups.map f
  | [] => rfl
  | a :: l => by
    rw [List.map_cons, List.eraseDups_cons, List.eraseDups_cons, List.map_cons, List.filter_map]
    rw [← eraseDups_map hf]
    congr 3
    apply List.filter_congr
    intro b _
    simp [hf.eq_iff]
termination_by l => l.length
decreasing_by exact Nat.lt_succ_of_le (List.length_filter_le _ _)

theorem rankingLossRow_mono {f : ℚ → ℚ} (hf : StrictMono f) (y : List Int) (s : List ℚ) :
    rankingLossRow y (s.map f) = rankingLossRow y s := by
  have hu : uniqueSorted (s.map f) = (uniqueSorted s).map f := by
    unfold uniqueSorted
    rw [sortBy_map f (fun a b => decide (a ≤ b)) _ (fun a b => by simp [hf.le_iff_le]), eraseDups_map hf.injective]
  have hb : ∀ u xs : List ℚ, binCount (u.map f) (xs.map f) = binCount u xs := by
    intro u xs
    simp [binCount, List.map_map, Function.comp_def, List.countP_map, hf.injective.eq_iff]
  unfold rankingLossRow rankingCount
  simp only [hu, relevant_mono, hb, List.length_map]

theorem reach_mono {f : ℚ → ℚ} (hf : StrictMono f) (l : List ℚ) (t : ℚ) : reach (l.map f) (f t) = reach l t := by
  simp [reach, List.countP_map, Function.comp_def, hf.le_iff_le]

theorem coverageRow_mono {f : ℚ → ℚ} (hf : StrictMono f) (y : List Int) (s : List ℚ) : coverageRow y (s.map f) = coverageRow y s := by
  have h := coverageRow_spec y s
  have h' := coverageRow_spec y (s.map f)
  rw [show Spec.scoresWith (fun c => decide (c ≠ 0)) y (s.map f) = (Spec.scoresWith (fun c => decide (c ≠ 0)) y s).map f from
    relevant_mono f y s] at h'
  refine C64_unique h' ?_
  obtain ⟨h1, h2⟩ := h
  refine ⟨fun r hr => ?_, ?_⟩
  · obtain ⟨x, hx, rfl⟩ := List.mem_map.1 hr
    rw [reach_mono hf]
    exact h1 x hx
  · rcases h2 with ⟨h2, h3⟩ | ⟨r, hr, he⟩
    · exact .inl ⟨by rw [h2]; rfl, h3⟩
    · exact .inr ⟨f r, List.mem_map_of_mem hr, by rw [reach_mono hf]; exact he⟩

theorem avgPrecision_mono {f : ℚ → ℚ} (hf : StrictMono f) (rel all : List ℚ) : avgPrecision (rel.map f) (all.map f) = avgPrecision rel all := by
  unfold avgPrecision
  simp only [List.map_eq_nil_iff, List.map_map, List.length_map]
  have : precisionAt (rel.map f) (all.map f) ∘ f = precisionAt rel all := by
    funext t
    simp [precisionAt, reach_mono hf]
  rw [this]

theorem lrapTerm_mono {f : ℚ → ℚ} (hf : StrictMono f) {c : Nat} (y : List Int) (s : List ℚ) (hl : y.length = s.length) (w : Option ℚ) :
    lrapTerm c w y (s.map f) = lrapTerm c w y s := by
  unfold lrapTerm
  simp only
  split
  · rfl
  · rename_i hn
    have hne : Spec.scoresWith (fun c => decide (c ≠ 0)) y s ≠ [] := by
      intro he
      apply hn
      left
      rw [← scoresWith_length _ y s hl, he]
      rfl
    have e := relevant_mono f y s
    change Spec.scoresWith (fun c => decide (c ≠ 0)) y (s.map f) = (Spec.scoresWith (fun c => decide (c ≠ 0)) y s).map f at e
    have : rankedPrecision y (s.map f) = rankedPrecision y s := by
      rw [rankedPrecision_eq _ _ (by rw [e]; simpa using hne), rankedPrecision_eq _ _ hne, e]
      exact avgPrecision_mono hf _ _
    rw [this]

theorem scanMin_mono {f : ℚ → ℚ} (hf : StrictMono f) (temp : List (WithTop ℚ)) (i : Nat) :
    scanMin (temp.map (WithTop.map f)) i = (WithTop.map f (scanMin temp i).1, (scanMin temp i).2) := by
  have hg : StrictMono (WithTop.map f) := WithTop.strictMono_map_iff.2 hf
  have hd : ∀ j, (temp.map (WithTop.map f)).getD j ⊤ = WithTop.map f (temp.getD j ⊤) := by
    intro j
    rw [List.getD_eq_getElem?_getD, List.getD_eq_getElem?_getD, List.getElem?_map]
    cases temp[j]? <;> rfl
  unfold scanMin
  rw [List.length_map]
  have : ∀ (js : List Nat) (m : WithTop ℚ × Nat),
      js.foldl (fun (m : WithTop ℚ × Nat) j => if (temp.map (WithTop.map f)).getD j ⊤ < m.1 then ((temp.map (WithTop.map f)).getD j ⊤, j) else m)
        (WithTop.map f m.1, m.2) =
      (WithTop.map f (js.foldl (fun (m : WithTop ℚ × Nat) j => if temp.getD j ⊤ < m.1 then (temp.getD j ⊤, j) else m) m).1,
        (js.foldl (fun (m : WithTop ℚ × Nat) j => if temp.getD j ⊤ < m.1 then (temp.getD j ⊤, j) else m) m).2) := by
    intro js
    induction js with
    | nil => intro m; rfl
    | cons j js ih =>
      intro m
      rw [List.foldl_cons, List.foldl_cons, hd]
      by_cases h : temp.getD j ⊤ < m.1
      · rw [if_pos h, if_pos (hg h)]
        exact ih (temp.getD j ⊤, j)
      · rw [if_neg h, if_neg (fun k => h (hg.lt_iff_lt.1 k))]
        exact ih m
  exact this _ (⊤, i)

theorem sortLoop_mono {f : ℚ → ℚ} (hf : StrictMono f) : ∀ (is : List Nat) (temp : List (WithTop ℚ)),
    sortLoop is (temp.map (WithTop.map f)) = sortLoop is temp
  | [], _ => rfl
  | i :: is, temp => by
    rw [sortLoop, sortLoop, scanMin_mono hf]
    have : (temp.map (WithTop.map f)).set (scanMin temp i).2 ⊤ = (temp.set (scanMin temp i).2 ⊤).map (WithTop.map f) := by
      rw [List.map_set]
      rfl
    dsimp only
    rw [this, sortLoop_mono hf]

theorem samplePrecision_mono {f : ℚ → ℚ} (hf : StrictMono f) (c : Nat) (y : List Int) (s : List ℚ) :
    RankMetrics.samplePrecision c y (s.map f) = RankMetrics.samplePrecision c y s := by
  have : selectionSort (s.map f) = selectionSort s := by
    unfold selectionSort
    rw [List.length_map, ← sortLoop_mono hf _ (s.map (fun v : ℚ => (v : WithTop ℚ))), List.map_map, List.map_map]
    rfl
  unfold RankMetrics.samplePrecision
  rw [this]

theorem checkScores_mono (f : ι → κ → ℚ → ℚ) (l : List ι) (J : List κ) (y : ι → κ → Int) (s : ι → κ → ℚ) (w : Option (List ℚ)) :
    checkScores J.length (tableOf y l J) J.length (tableOf (fun i j => f i j (s i j)) l J) w =
      checkScores J.length (tableOf y l J) J.length (tableOf s l J) w := by
  unfold checkScores
  simp [table_length]

theorem row_map (f : ℚ → ℚ) (J : List κ) (s : κ → ℚ) : J.map (fun j => f (s j)) = (J.map s).map f := by
  rw [List.map_map]
  rfl

/-- **C96**: the ranking metrics over the labels of an example depend on the order of the scores of each example only; the transformation
may be another one for every example. -/
theorem C96_ranking_monotone {f : ι → ℚ → ℚ} (hf : ∀ i, StrictMono (f i)) (l : List ι) (J : List κ) (y : ι → κ → Int) (s : ι → κ → ℚ)
    (w : Option (ι → ℚ)) :
    labelRankingLoss J.length (tableOf y l J) (tableOf (fun i j => f i (s i j)) l J) (weightsOf w l) =
        labelRankingLoss J.length (tableOf y l J) (tableOf s l J) (weightsOf w l) ∧
      coverageError J.length (tableOf y l J) (tableOf (fun i j => f i (s i j)) l J) (weightsOf w l) =
        coverageError J.length (tableOf y l J) (tableOf s l J) (weightsOf w l) ∧
      lrapScore J.length (tableOf y l J) J.length (tableOf (fun i j => f i (s i j)) l J) (weightsOf w l) =
        lrapScore J.length (tableOf y l J) J.length (tableOf s l J) (weightsOf w l) ∧
      averagePrecision J.length (tableOf y l J) J.length (tableOf (fun i j => f i (s i j)) l J) (weightsOf w l) =
        averagePrecision J.length (tableOf y l J) J.length (tableOf s l J) (weightsOf w l) := by
  refine ⟨?_, ?_, ?_, ?_⟩
  · unfold labelRankingLoss
    rw [table_length, table_length, table_length, table_shape, table_shape]
    unfold tableOf
    rw [List.zipWith_map, List.zipWith_self, List.zipWith_map, List.zipWith_self]
    simp only [row_map, rankingLossRow_mono (hf _)]
  · unfold coverageError
    rw [table_length, table_length, table_length]
    unfold tableOf
    rw [List.zipWith_map, List.zipWith_self, List.zipWith_map, List.zipWith_self]
    simp only [row_map, coverageRow_mono (hf _)]
  · unfold lrapScore
    rw [checkScores_mono (fun i _ => f i)]
    have : lrapSum J.length (weightsOf w l) (tableOf y l J) (tableOf (fun i j => f i (s i j)) l J) =
        lrapSum J.length (weightsOf w l) (tableOf y l J) (tableOf s l J) := by
      unfold tableOf
      rw [lrapSum_table, lrapSum_table]
      have : ∀ i, lrapTerm J.length (w.map (fun f => f i)) (J.map (y i)) (J.map (fun j => f i (s i j))) =
          lrapTerm J.length (w.map (fun f => f i)) (J.map (y i)) (J.map (s i)) := by
        intro i
        rw [row_map, lrapTerm_mono (hf i) _ _ (by simp)]
      simp only [this]
    cases w with
    | none =>
      simp only [weightsOf, Option.map_none] at this ⊢
      rw [this]
    | some w =>
      simp only [weightsOf, Option.map_some] at this ⊢
      rw [this]
  · unfold averagePrecision
    rw [checkScores_mono (fun i _ => f i), table_length, table_length]
    unfold tableOf
    rw [average_table, average_table]
    simp only [row_map, samplePrecision_mono (hf _)]

/-- **C96**: `micro_auc_score` depends on the order of the scores of each label only. -/
theorem C96_micro_auc_monotone {f : κ → ℚ → ℚ} (hf : ∀ k, StrictMono (f k)) (l : List ι) (J : List κ) (y : ι → κ → Int) (s : ι → κ → ℚ)
    (w : Option (ι → ℚ)) :
    microAuc J.length (tableOf y l J) J.length (tableOf (fun i j => f j (s i j)) l J) (weightsOf w l) =
      microAuc J.length (tableOf y l J) J.length (tableOf s l J) (weightsOf w l) := by
  unfold microAuc
  rw [checkScores_mono (fun _ k => f k), aucSum_table, aucSum_table]
  have : ∀ k, classAuc (l.map (fun i => y i k)) (l.map (fun i => f k (s i k))) = classAuc (l.map (fun i => y i k)) (l.map (fun i => s i k)) := by
    intro k
    unfold classAuc
    simp only [classScores_map, List.length_map, List.map_map, Function.comp_def, List.countP_map, gt_iff_lt, (hf k).lt_iff_lt]
  simp only [this]

/-- **C96**, negative: `one_error` compares sums of scores with sums of labels. With the labels themselves as scores it is 1 for every example
set, and 0 after adding 1 to every score. -/
theorem C96_one_error_violation {c : Nat} (hc : 1 < c) {y : List (List Int)} (hne : y ≠ []) (hr : ∀ r ∈ y, r.length = c) (hz : ZeroOne y) :
    oneError c y (y.map (fun r => r.map (fun v : Int => (v : ℚ)))) none = .ok 1 ∧
      oneError c y (y.map (fun r => r.map (fun v : Int => (v : ℚ) + 1))) none = .ok 0 := by
  refine ⟨C63_perfect_violation hc hne hr hz, ?_⟩
  refine C63_all_wrong_violation hc ⟨hne, by simp, hr, by simpa using hr, hz⟩ (fun i hi => ?_)
  rw [List.getD_eq_getElem _ _ hi, List.getD_eq_getElem _ _ (by simpa using hi), List.getElem_map]
  have : ∀ r : List Int, (r.map (fun v : Int => (v : ℚ) + 1)).sum = (r.map (fun v : Int => (v : ℚ))).sum + r.length := by
    intro r
    induction r with
    | nil => simp
    | cons v r ih =>
      simp only [List.map_cons, List.sum_cons, ih, List.length_cons]
      push_cast
      ring
  rw [this, hr _ (List.getElem_mem hi)]
  have : (0:ℚ) < c := by exact_mod_cast (by omega : 0 < c)
  intro h
  linarith

/-! ## Names of the classes and units of the weights -/

/-- **C96**: `accuracy_score`, `zero_one_loss` and `hamming_loss` of label vectors do not depend on the numbers by which the classes are named. -/
theorem C96_class_names {g : Int → Int} (hg : Function.Injective g) (a b : List Int) (normalize : Bool) (w : Option (List ℚ)) :
    accuracyScore (.vec (a.map g)) (.vec (b.map g)) w = accuracyScore (.vec a) (.vec b) w ∧
      zeroOneLoss (.vec (a.map g)) (.vec (b.map g)) normalize w = zeroOneLoss (.vec a) (.vec b) normalize w ∧
      hammingLoss (.vec (a.map g)) (.vec (b.map g)) = hammingLoss (.vec a) (.vec b) := by
  have hc : checkTargets (.vec (a.map g)) (.vec (b.map g)) = checkTargets (.vec a) (.vec b) :=
    check_eq (by simp [Tgt.len]) (by simp [Tgt.len]) (type_vec_eq (numUnique_inj hg a)) (type_vec_eq (numUnique_inj hg b))
  have h1 : accuracyScore (.vec (a.map g)) (.vec (b.map g)) w = accuracyScore (.vec a) (.vec b) w := by
    unfold accuracyScore
    rw [hc]
    have : accuracyFlat (a.map g) (b.map g) w = accuracyFlat a b w := by
      unfold accuracyFlat
      simp only [List.length_map, List.zipWith_map, hg.eq_iff]
    simp only [Tgt.ravel, this]
  refine ⟨h1, ?_, ?_⟩
  · unfold zeroOneLoss
    rw [h1]
    simp only [Tgt.len, List.length_map]
  · have hn : neCount (.vec (a.map g)) (.vec (b.map g)) = neCount (.vec a) (.vec b) := by
      simp only [neCount]
      rw [List.zip_map, List.countP_map]
      simp [Function.comp_def, hg.eq_iff]
    unfold hammingLoss
    rw [hc, hn]
    simp [Tgt.len]

theorem npAverage_scale {k : ℚ} (hk : k ≠ 0) (f : ι → ℚ) (w : ι → ℚ) (l : List ι) :
    npAverage (l.map f) (some (l.map (fun i => k * w i))) = npAverage (l.map f) (some (l.map w)) := by
  have h1 : (l.map (fun i => k * w i)).sum = k * (l.map w).sum := List.sum_map_mul_left ..
  have h2 : (l.map (fun i => f i * (k * w i))).sum = k * (l.map (fun i => f i * w i)).sum := by
    rw [← List.sum_map_mul_left]
    congr 1
    refine List.map_congr_left (fun i _ => ?_)
    ring
  simp only [npAverage, List.zipWith_map, List.zipWith_self]
  rw [h1, h2]
  by_cases h0 : (l.map w).sum = 0
  · simp [h0]
  · rw [if_neg h0, if_neg (mul_ne_zero hk h0), mul_div_mul_left _ _ hk]

/-- **C96**: the unit of the sample weights makes no difference to `accuracy_score`, `label_ranking_loss` and `coverage_error`. -/
theorem C96_weight_unit {k : ℚ} (hk : k ≠ 0) (l : List ι) (J : List κ) (a b : ι → Int) (y : ι → κ → Int) (s : ι → κ → ℚ) (w : ι → ℚ) :
    accuracyScore (.vec (l.map a)) (.vec (l.map b)) (some (l.map (fun i => k * w i))) =
        accuracyScore (.vec (l.map a)) (.vec (l.map b)) (some (l.map w)) ∧
      labelRankingLoss J.length (tableOf y l J) (tableOf s l J) (some (l.map (fun i => k * w i))) =
        labelRankingLoss J.length (tableOf y l J) (tableOf s l J) (some (l.map w)) ∧
      coverageError J.length (tableOf y l J) (tableOf s l J) (some (l.map (fun i => k * w i))) =
        coverageError J.length (tableOf y l J) (tableOf s l J) (some (l.map w)) := by
  refine ⟨?_, ?_, ?_⟩
  · have : accuracyFlat (l.map a) (l.map b) (some (l.map (fun i => k * w i))) = accuracyFlat (l.map a) (l.map b) (some (l.map w)) := by
      unfold accuracyFlat
      rw [if_neg (by simp [weightsFit]), if_neg (by simp [weightsFit]), List.zipWith_map, List.zipWith_self]
      exact npAverage_scale hk _ _ _
    unfold accuracyScore
    simp only [Tgt.ravel, this]
  · unfold labelRankingLoss
    rw [table_length, table_length, table_shape]
    unfold tableOf
    rw [List.zipWith_map, List.zipWith_self, npAverage_scale hk]
    simp [weightsFit]
  · unfold coverageError
    rw [table_length, table_length]
    unfold tableOf
    rw [List.zipWith_map, List.zipWith_self, npAverage_scale hk]
    simp [weightsFit]

/-- **C96**, negative: it does to `label_ranking_average_precision_score`, because an example without relevant labels adds 1 and not its
weight: for examples of that kind the score is their number divided by the sum of the weights. -/
theorem C96_weight_unit_violation (l : List ι) (hl : l ≠ []) (J : List κ) (s : ι → κ → ℚ) {w : ι → ℚ} (hw : (l.map w).sum ≠ 0) {k : ℚ}
    (hk : k ≠ 0) (hk1 : k ≠ 1) :
    ∃ p q, lrapScore J.length (tableOf (fun _ _ => 0) l J) J.length (tableOf s l J) (some (l.map w)) = .ok (some p) ∧
      lrapScore J.length (tableOf (fun _ _ => 0) l J) J.length (tableOf s l J) (some (l.map (fun i => k * w i))) = .ok (some q) ∧ p ≠ q := by
  have hn : numUnique (tableOf (fun (_ : ι) (_ : κ) => (0 : Int)) l J).flatten ≤ 2 := by
    refine numUnique_zeroOne (fun r hr c hc => ?_)
    obtain ⟨i, _, rfl⟩ := List.mem_map.1 hr
    simp at hc
    exact .inl hc.2
  have hty : ∃ t, t ≠ TType.multiclass ∧ typeOfTarget (.mat J.length (tableOf (fun (_ : ι) (_ : κ) => (0 : Int)) l J)) = .ok t := by
    unfold typeOfTarget
    rw [if_pos (show numUnique (Tgt.mat J.length (tableOf (fun (_ : ι) (_ : κ) => (0 : Int)) l J)).ravel ≤ 2 from hn)]
    simp only
    rw [if_neg (by simpa [tableOf] using hl)]
    split
    · exact ⟨.multilabel, by decide, rfl⟩
    · exact ⟨.binary, by decide, rfl⟩
  have hch : ∀ v : ι → ℚ, checkScores J.length (tableOf (fun (_ : ι) (_ : κ) => (0 : Int)) l J) J.length (tableOf s l J) (some (l.map v)) = .ok () := by
    intro v
    obtain ⟨t, ht, hte⟩ := hty
    unfold checkScores
    rw [if_neg (by simp [table_length, weightsFit]), if_neg (by simp), hte]
    cases t <;> simp_all
  have hsum : ∀ v : ι → ℚ, lrapSum J.length (some (l.map v)) (tableOf (fun (_ : ι) (_ : κ) => (0 : Int)) l J) (tableOf s l J) = l.length := by
    intro v
    have := lrapSum_table J.length (fun (_ : ι) => J.map (fun _ => (0 : Int))) (fun i => J.map (s i)) (some v) l
    simp only [weightsOf, Option.map_some] at this
    unfold tableOf
    rw [this]
    have e : ∀ i, lrapTerm J.length (some (v i)) (J.map (fun _ => (0 : Int))) (J.map (s i)) = 1 := by
      intro i
      unfold lrapTerm
      simp
    simp only [e]
    simp
  have hk' : (l.map (fun i => k * w i)).sum = k * (l.map w).sum := List.sum_map_mul_left ..
  refine ⟨l.length / (l.map w).sum, l.length / (k * (l.map w).sum), ?_, ?_, ?_⟩
  · unfold lrapScore
    rw [hch]
    simp only
    rw [if_neg hw, hsum]
  · unfold lrapScore
    rw [hch]
    simp only
    rw [hk', if_neg (mul_ne_zero hk hw), hsum]
  · have h0 : (l.length : ℚ) ≠ 0 := by simpa using hl
    intro h
    rw [div_eq_div_iff hw (mul_ne_zero hk hw)] at h
    have := mul_left_cancel₀ h0 h
    apply hk1
    have h2 : k * (l.map w).sum = 1 * (l.map w).sum := by rw [one_mul]; exact this
    exact mul_right_cancel₀ hw h2

/-! ## Cases -/

/-- Three examples and two labels, listed in another order. -/
example : labelRankingLoss 2 [[1, 0], [0, 1], [1, 0]] [[1, 2], [3, 4], [5, 5]] (some [1, 2, 3]) = .ok (some (2 / 3)) ∧
    labelRankingLoss 2 [[0, 1], [1, 0], [0, 1]] [[5, 5], [4, 3], [2, 1]] (some [3, 2, 1]) = .ok (some (2 / 3)) := by decide +kernel

/-- The same by the theorem: examples 0, 1, 2 and labels 0, 1. -/
example (y : Nat → Nat → Int) (s : Nat → Nat → ℚ) (w : Nat → ℚ) :
    labelRankingLoss 2 (tableOf y [0, 1, 2] [0, 1]) (tableOf s [0, 1, 2] [0, 1]) (some [w 0, w 1, w 2]) =
      labelRankingLoss 2 (tableOf y [2, 0, 1] [1, 0]) (tableOf s [2, 0, 1] [1, 0]) (some [w 2, w 0, w 1]) :=
  C96_ranking_loss (l := [0, 1, 2]) (l' := [2, 0, 1]) (J := [0, 1]) (J' := [1, 0]) (by decide) (by decide) y s (some w)

/-- A strictly increasing transformation. -/
example : rocAucScore [0, 1, 1, 0] [1, 3, 2, 2] none = .ok (7 / 8) ∧ rocAucScore [0, 1, 1, 0] [3, 7, 5, 5] none = .ok (7 / 8) := by decide +kernel
example : StrictMono (fun x : ℚ => 2 * x + 1) := fun a b h => by dsimp; linarith

end Alipy.MetricSymmetry

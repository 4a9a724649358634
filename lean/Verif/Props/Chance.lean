import Verif.Spec.Chance
import Verif.Props.SameMeasure
import Verif.Props.Improve
import Mathlib.Algebra.BigOperators.Field
import Mathlib.Algebra.BigOperators.Fin
/-!
# C150: a guess gets the score of chance
-/
namespace Alipy.Chance
open Alipy Alipy.Spec Alipy.RankMetrics

/-! ## Means over all orders -/

theorem sum_list {ι α : Type} [Fintype ι] (h : ι → α → ℚ) : ∀ l : List α, ∑ σ, (l.map (h σ)).sum = (l.map (fun a => ∑ σ, h σ a)).sum
  | [] => by simp
  | a :: l => by simp [Finset.sum_add_distrib, sum_list h l]

theorem credit_swap (p q : ℚ) : credit p q + credit q p = 1 := by
  unfold credit
  rcases lt_trichotomy p q with h | h | h
  · rw [if_neg (not_lt.2 h.le), if_neg h.ne', if_pos h]; norm_num
  · subst h; simp; norm_num
  · rw [if_pos h, if_neg (not_lt.2 h.le), if_neg h.ne']; norm_num

theorem sum_credit {n : Nat} (f : Fin n → ℚ) {a b : Fin n} (h : a ≠ b) : ∑ σ : Equiv.Perm (Fin n), credit (f (σ a)) (f (σ b)) = n.factorial / 2 := by
  have h1 : ∑ σ : Equiv.Perm (Fin n), credit (f (σ a)) (f (σ b)) = ∑ σ : Equiv.Perm (Fin n), credit (f (σ b)) (f (σ a)) := by
    rw [← Equiv.sum_comp (Equiv.mulRight (Equiv.swap a b)) (fun σ : Equiv.Perm (Fin n) => credit (f (σ b)) (f (σ a)))]
    simp
  have h2 : ∑ σ : Equiv.Perm (Fin n), (credit (f (σ a)) (f (σ b)) + credit (f (σ b)) (f (σ a))) = n.factorial := by
    simp [credit_swap, Fintype.card_perm]
  rw [Finset.sum_add_distrib, ← h1] at h2
  linarith

theorem sum_value {n : Nat} (f : Fin n → ℚ) (a : Fin n) : n * ∑ σ : Equiv.Perm (Fin n), f (σ a) = n.factorial * ∑ i, f i := by
  have h1 : ∀ b : Fin n, ∑ σ : Equiv.Perm (Fin n), f (σ b) = ∑ σ : Equiv.Perm (Fin n), f (σ a) := by
    intro b
    rw [← Equiv.sum_comp (Equiv.mulRight (Equiv.swap a b)) (fun σ : Equiv.Perm (Fin n) => f (σ b))]
    simp
  have h2 : ∑ b : Fin n, ∑ σ : Equiv.Perm (Fin n), f (σ b) = n * ∑ σ : Equiv.Perm (Fin n), f (σ a) := by
    simp [h1]
  have h3 : ∑ b : Fin n, ∑ σ : Equiv.Perm (Fin n), f (σ b) = n.factorial * ∑ i, f i := by
    rw [Finset.sum_comm]
    simp [Equiv.sum_comp, Fintype.card_perm]
  rw [← h2, h3]

theorem scoresWith_ofFn {n : Nat} {y : List Int} (hy : y.length = n) (P : Int → Bool) (g : Fin n → ℚ) :
    scoresWith P y (List.ofFn g) = ((List.finRange n).filter (fun i : Fin n => P (y.getD i 0))).map g := by
  have hz : y.zip (List.ofFn g) = (List.finRange n).map (fun i : Fin n => (y.getD i 0, g i)) := by
    apply List.ext_getElem
    · simp [hy]
    · intro i h1 h2
      have : i < y.length := by simp at h1; omega
      simp [List.getElem?_eq_getElem this]
  rw [scoresWith, hz, List.filter_map, List.map_map]
  rfl

theorem sum_statistic {n : Nat} {y : List Int} (hy : y.length = n) (f : Fin n → ℚ) (P : Int → Bool) (hP : ∃ c ∈ y, P c = true) (hN : ∃ c ∈ y, P c = false) :
    ∑ σ : Equiv.Perm (Fin n), pairStatistic (scoresWith P y (List.ofFn (fun i => f (σ i)))) (scoresWith (fun c => !P c) y (List.ofFn (fun i => f (σ i)))) = n.factorial / 2 := by
  simp only [scoresWith_ofFn hy]
  set A := (List.finRange n).filter (fun i : Fin n => P (y.getD i 0)) with hA
  set B := (List.finRange n).filter (fun i : Fin n => !P (y.getD i 0)) with hB
  have hA0 : (A.length : ℚ) ≠ 0 := by
    obtain ⟨c, hc, hp⟩ := hP
    obtain ⟨i, hi, rfl⟩ := List.getElem_of_mem hc
    have : (⟨i, hy ▸ hi⟩ : Fin n) ∈ A := by simp [hA, List.getElem?_eq_getElem hi, hp]
    exact_mod_cast (List.length_pos_of_mem this).ne'
  have hB0 : (B.length : ℚ) ≠ 0 := by
    obtain ⟨c, hc, hp⟩ := hN
    obtain ⟨i, hi, rfl⟩ := List.getElem_of_mem hc
    have : (⟨i, hy ▸ hi⟩ : Fin n) ∈ B := by simp [hB, List.getElem?_eq_getElem hi, hp]
    exact_mod_cast (List.length_pos_of_mem this).ne'
  unfold pairStatistic
  simp only [List.length_map, List.map_map, Function.comp_def]
  rw [← Finset.sum_div, sum_list]
  have h1 : ∀ a ∈ A, ∑ σ : Equiv.Perm (Fin n), (B.map (fun b => credit (f (σ a)) (f (σ b)))).sum = B.length * ((n.factorial : ℚ) / 2) := by
    intro a ha
    rw [sum_list, List.map_congr_left (g := fun _ => (n.factorial : ℚ) / 2)]
    · simp
    · intro b hb
      apply sum_credit
      rintro rfl
      simp only [hA, hB, List.mem_filter, List.mem_finRange, true_and] at ha hb
      rw [ha] at hb
      cases hb
  rw [List.map_congr_left h1]
  simp only [List.map_const', List.sum_replicate, nsmul_eq_mul]
  field_simp

theorem factorial_ne (n : Nat) : (n.factorial : ℚ) ≠ 0 := by exact_mod_cast Nat.factorial_ne_zero n

/-! ## The area under the curve -/

theorem scoresWith_ne {P : Int → Bool} : ∀ {y : List Int} {s : List ℚ}, y.length = s.length → (scoresWith P y s ≠ [] ↔ ∃ c ∈ y, P c = true)
  | [], _, _ => by simp [scoresWith]
  | c :: y, [], h => by simp at h
  | c :: y, x :: s, h => by
    have ih := scoresWith_ne (P := P) (y := y) (s := s) (by simpa using h)
    unfold scoresWith at ih ⊢
    cases hc : P c <;> simp_all

/-- **C150**: the scores in a random order have an area of one half under the curve, on average over all orders, whatever the scores and the labels are. -/
theorem C150_auc {y : List Int} {s : List ℚ} {pos : Option Int} (h : y.length = s.length) (hok : pos ≠ none ∨ BinaryLabels y)
    (hP : pos.getD 1 ∈ y) (hN : ∃ c ∈ y, c ≠ pos.getD 1) :
    ∃ a, (∀ σ, rocAucScore y (shuffle s.length 0 s σ) pos = .ok (a σ)) ∧ averageOver s.length a = 1 / 2 := by
  have hl : ∀ σ, y.length = (shuffle s.length 0 s σ).length := fun σ => by simp [shuffle, h]
  refine ⟨fun σ => pairStatistic (positives pos y (shuffle s.length 0 s σ)) (negatives pos y (shuffle s.length 0 s σ)), fun σ => ?_, ?_⟩
  · refine C38_auc (hl σ) hok ((scoresWith_ne (hl σ)).2 ⟨_, hP, by simp⟩) ((scoresWith_ne (hl σ)).2 ?_)
    obtain ⟨c, hc, hne⟩ := hN
    exact ⟨c, hc, by simpa using hne⟩
  · have e : (fun c : Int => decide (c ≠ pos.getD 1)) = fun c => !decide (c = pos.getD 1) := by funext c; simp
    have := sum_statistic h (fun i => s.getD i 0) (fun c => decide (c = pos.getD 1)) ⟨_, hP, by simp⟩ (by
      obtain ⟨c, hc, hne⟩ := hN
      exact ⟨c, hc, by simpa using hne⟩)
    unfold averageOver positives negatives
    rw [e]
    unfold shuffle
    rw [this]
    have := factorial_ne s.length
    field_simp

theorem constant_statistic {A B : List ℚ} {v : ℚ} (hA : ∀ x ∈ A, x = v) (hB : ∀ x ∈ B, x = v) (h1 : A ≠ []) (h2 : B ≠ []) : pairStatistic A B = 1 / 2 := by
  have n1 : (A.length : ℚ) ≠ 0 := by exact_mod_cast (List.length_pos_of_ne_nil h1).ne'
  have n2 : (B.length : ℚ) ≠ 0 := by exact_mod_cast (List.length_pos_of_ne_nil h2).ne'
  have e1 : ∀ p ∈ A, (B.map (fun q => credit p q)).sum = B.length * (1 / 2) := by
    intro p hp
    rw [List.map_congr_left (g := fun _ => (1 / 2 : ℚ))]
    · simp
    · intro q hq
      rw [hA p hp, hB q hq]
      simp [credit]
  unfold pairStatistic
  rw [List.map_congr_left e1]
  simp only [List.map_const', List.sum_replicate, nsmul_eq_mul]
  field_simp

/-- **C150**: equal scores have an area of one half. -/
theorem C150_auc_constant {y : List Int} {v : ℚ} {pos : Option Int} (hok : pos ≠ none ∨ BinaryLabels y) (hP : pos.getD 1 ∈ y) (hN : ∃ c ∈ y, c ≠ pos.getD 1) :
    rocAucScore y (List.replicate y.length v) pos = .ok (1 / 2) := by
  have hl : y.length = (List.replicate y.length v).length := by simp
  have h1 := (scoresWith_ne (P := fun c => decide (c = pos.getD 1)) hl).2 ⟨_, hP, by simp⟩
  have h2 : scoresWith (fun c => decide (c ≠ pos.getD 1)) y (List.replicate y.length v) ≠ [] := by
    obtain ⟨c, hc, hne⟩ := hN
    exact (scoresWith_ne hl).2 ⟨c, hc, by simpa using hne⟩
  rw [C38_auc hl hok h1 h2]
  congr 1
  have hall : ∀ P : Int → Bool, ∀ x ∈ scoresWith P y (List.replicate y.length v), x = v := by
    intro P x hx
    obtain ⟨p, hp, rfl⟩ := List.mem_map.1 hx
    exact (List.mem_replicate.1 (List.of_mem_zip (List.mem_filter.1 hp).1).2).2
  unfold positives negatives
  obtain ⟨A, hA⟩ : ∃ A, scoresWith (fun c => decide (c = pos.getD 1)) y (List.replicate y.length v) = A := ⟨_, rfl⟩
  obtain ⟨B, hB⟩ : ∃ B, scoresWith (fun c => decide (c ≠ pos.getD 1)) y (List.replicate y.length v) = B := ⟨_, rfl⟩
  rw [hA] at h1 ⊢
  rw [hB] at h2 ⊢
  exact (constant_statistic (hA ▸ hall _) (hB ▸ hall _) h1 h2)

theorem statistic_range (A B : List ℚ) : 0 ≤ pairStatistic A B ∧ pairStatistic A B ≤ 1 := by
  have hc : ∀ p q, 0 ≤ credit p q ∧ credit p q ≤ 1 := by
    intro p q
    unfold credit
    split_ifs <;> norm_num
  have hB : ∀ p, ∀ B : List ℚ, 0 ≤ (B.map (fun q => credit p q)).sum ∧ (B.map (fun q => credit p q)).sum ≤ B.length := by
    intro p B
    induction B with
    | nil => simp
    | cons q B ih =>
      simp only [List.map_cons, List.sum_cons, List.length_cons]
      push_cast
      exact ⟨by linarith [(hc p q).1, ih.1], by linarith [(hc p q).2, ih.2]⟩
  have hA : ∀ A : List ℚ, 0 ≤ (A.map (fun p => (B.map (fun q => credit p q)).sum)).sum ∧ (A.map (fun p => (B.map (fun q => credit p q)).sum)).sum ≤ A.length * B.length := by
    intro A
    induction A with
    | nil => simp
    | cons p A ih =>
      simp only [List.map_cons, List.sum_cons, List.length_cons]
      push_cast
      exact ⟨by linarith [(hB p B).1, ih.1], by linarith [(hB p B).2, ih.2]⟩
  unfold pairStatistic
  exact ⟨div_nonneg (hA A).1 (by positivity), div_le_one_of_le₀ (hA A).2 (by positivity)⟩

/-- **C150**: every area is between 0 and 1. -/
theorem C150_auc_range {y : List Int} {s : List ℚ} {pos : Option Int} (h : y.length = s.length) (hok : pos ≠ none ∨ BinaryLabels y)
    (hP : pos.getD 1 ∈ y) (hN : ∃ c ∈ y, c ≠ pos.getD 1) : ∃ q, rocAucScore y s pos = .ok q ∧ 0 ≤ q ∧ q ≤ 1 := by
  refine ⟨_, C38_auc h hok ((scoresWith_ne h).2 ⟨_, hP, by simp⟩) ((scoresWith_ne h).2 ?_), statistic_range _ _⟩
  obtain ⟨c, hc, hne⟩ := hN
  exact ⟨c, hc, by simpa using hne⟩

/-- Three samples, two scores equal: the area is 1/4 for four of the six orders and 1 for the other two. -/
example : rocAucScore [1, 0, 0] [3, 3, 5] none = .ok (1 / 4) ∧ rocAucScore [1, 0, 0] [5, 3, 3] none = .ok 1 := by
  constructor
  · rw [C38_auc rfl (.inr ⟨by simp, .inl (by simp)⟩) (by decide +kernel) (by decide +kernel)]
    congr 1
    decide +kernel
  · rw [C38_auc rfl (.inr ⟨by simp, .inl (by simp)⟩) (by decide +kernel) (by decide +kernel)]
    congr 1
    decide +kernel

/-! ## Accuracy -/

theorem accuracy_eq {a b : List Int} (h : a.length = b.length) (hne : a ≠ []) :
    accuracyScore (.vec a) (.vec b) none = .ok (some ((∑ i : Fin a.length, if b.getD i 0 = a.getD i 0 then (1 : ℚ) else 0) / a.length)) := by
  have hpos : (a.length : ℚ) ≠ 0 := by exact_mod_cast (List.length_pos_of_ne_nil hne).ne'
  rw [C37_accuracy_vectors h none (by simp [FitWeights]) (by simpa [weight] using hpos)]
  congr 2
  unfold fraction
  rw [Finset.sum_fin_eq_sum_range]
  simp only [weight, Finset.sum_const, Finset.card_range, nsmul_eq_mul, mul_one]
  congr 1
  refine Finset.sum_congr rfl fun i hi => ?_
  have hi := Finset.mem_range.1 hi
  have hi' : i < b.length := h ▸ hi
  simp only [hi, dif_pos, List.getElem?_eq_getElem hi, List.getElem?_eq_getElem hi', List.getD_eq_getElem _ _ hi, List.getD_eq_getElem _ _ hi', Option.some.injEq]
  simp only [eq_comm]

theorem count_sum (b : List Int) (c : Int) : (b.count c : ℚ) = ∑ i : Fin b.length, if b.getD i 0 = c then (1 : ℚ) else 0 := by
  induction b with
  | nil => simp
  | cons x b ih =>
    rw [List.count_cons]
    push_cast
    rw [ih, List.length_cons, Fin.sum_univ_succ]
    simp only [Fin.val_zero, List.getD_cons_zero, Fin.val_succ, List.getD_cons_succ, beq_iff_eq]
    rw [add_comm]

/-- **C150**: predictions in a random order are right as often as the frequencies of the classes say, on average over all orders. -/
theorem C150_accuracy {a b : List Int} (h : a.length = b.length) (hne : a ≠ []) :
    ∃ q, (∀ σ, accuracyScore (.vec a) (.vec (shuffle b.length 0 b σ)) none = .ok (some (q σ))) ∧
      averageOver b.length q = ∑ c ∈ a.toFinset, (a.count c / a.length : ℚ) * (b.count c / b.length) := by
  have hpos : (a.length : ℚ) ≠ 0 := by exact_mod_cast (List.length_pos_of_ne_nil hne).ne'
  have hposb : (b.length : ℚ) ≠ 0 := by rw [← h]; exact hpos
  refine ⟨_, fun σ => accuracy_eq (by simp [shuffle, h]) hne, ?_⟩
  unfold averageOver
  rw [← Finset.sum_div]
  have e : ∀ σ : Equiv.Perm (Fin b.length), (∑ i : Fin a.length, if (shuffle b.length 0 b σ).getD i 0 = a.getD i 0 then (1 : ℚ) else 0) =
      ∑ i : Fin a.length, (fun j : Fin b.length => if b.getD j 0 = a.getD i 0 then (1 : ℚ) else 0) (σ ⟨i, h ▸ i.2⟩) := by
    intro σ
    refine Finset.sum_congr rfl fun i _ => ?_
    have : (i : Nat) < b.length := h ▸ i.2
    simp [shuffle, this]
  rw [Finset.sum_congr rfl fun σ _ => e σ, Finset.sum_comm]
  have e2 : ∀ i : Fin a.length, ∑ σ : Equiv.Perm (Fin b.length), (fun j : Fin b.length => if b.getD j 0 = a.getD i 0 then (1 : ℚ) else 0) (σ ⟨i, h ▸ i.2⟩) =
      b.length.factorial * (b.count (a.getD i 0)) / b.length := by
    intro i
    rw [eq_div_iff hposb, mul_comm, count_sum]
    exact sum_value (fun j : Fin b.length => if b.getD j 0 = a.getD i 0 then (1 : ℚ) else 0) ⟨i, h ▸ i.2⟩
  rw [Finset.sum_congr rfl fun i _ => e2 i]
  have e3 : ∑ i : Fin a.length, (b.count (a.getD i 0) : ℚ) = ∑ c ∈ a.toFinset, (a.count c : ℚ) * b.count c := by
    have : ∑ i : Fin a.length, (b.count (a.getD i 0) : ℚ) = (a.map (fun c => (b.count c : ℚ))).sum := by
      rw [← Fin.sum_univ_fun_getElem]
      simp
    rw [this, Finset.sum_list_map_count]
    simp
  rw [← Finset.sum_div, ← Finset.mul_sum, e3, ← h, Finset.mul_sum, Finset.sum_div, Finset.sum_div, Finset.sum_div]
  refine Finset.sum_congr rfl fun c _ => ?_
  have := factorial_ne a.length
  field_simp

/-- **C150**: predicting one class for all is right as often as the class occurs. So over all classes the accuracies add up to one, and the most frequent class is right
for at least one of `k` samples, if there are `k` classes. -/
theorem C150_constant_accuracy {a : List Int} (hne : a ≠ []) :
    (∀ c, accuracyScore (.vec a) (.vec (List.replicate a.length c)) none = .ok (some ((a.count c : ℚ) / a.length))) ∧
    ∑ c ∈ a.toFinset, (a.count c : ℚ) / a.length = 1 ∧ ∃ c ∈ a, 1 / (a.toFinset.card : ℚ) ≤ (a.count c : ℚ) / a.length := by
  have hpos : (a.length : ℚ) ≠ 0 := by exact_mod_cast (List.length_pos_of_ne_nil hne).ne'
  have hsum : ∑ c ∈ a.toFinset, (a.count c : ℚ) / a.length = 1 := by
    rw [← Finset.sum_div, div_eq_one_iff_eq hpos]
    exact_mod_cast List.sum_toFinset_count_eq_length a
  refine ⟨fun c => ?_, hsum, ?_⟩
  · rw [accuracy_eq (by simp) hne, count_sum]
    congr 3
    refine Finset.sum_congr rfl fun i _ => ?_
    have : (List.replicate a.length c).getD i 0 = c := by simp
    rw [this]
    simp only [eq_comm]
  · by_contra hcon
    push Not at hcon
    have hcard : (a.toFinset.card : ℚ) ≠ 0 := by
      have : a.toFinset.Nonempty := by simpa [List.toFinset_nonempty_iff] using hne
      exact_mod_cast this.card_pos.ne'
    have hlt : ∑ c ∈ a.toFinset, (a.count c : ℚ) / a.length < ∑ c ∈ a.toFinset, 1 / (a.toFinset.card : ℚ) :=
      Finset.sum_lt_sum_of_nonempty (by simpa [List.toFinset_nonempty_iff] using hne) (fun c hc => hcon c (by simpa using hc))
    rw [hsum, Finset.sum_const, nsmul_eq_mul, mul_one_div_cancel hcard] at hlt
    exact lt_irrefl _ hlt

/-- Answering 0 for three samples of class 0 and one of class 1. -/
example : accuracyScore (.vec [0, 0, 1, 0]) (.vec (List.replicate 4 0)) none = .ok (some (3 / 4)) := by
  have := (C150_constant_accuracy (a := [0, 0, 1, 0]) (by simp)).1 0
  simpa using this

/-! ## Rankings of labels -/

section
variable {c : Nat} {y : List (List Int)} {s : List (List ℚ)}

theorem scored_shuffle (h : Scored c y s) (σ : Equiv.Perm (Fin c)) : Scored c y (s.map (fun r => shuffle c 0 r σ)) :=
  ⟨h.ne, by simp [h.len], h.yrow, by simp [shuffle], h.zo⟩

theorem shuffle_nodup {r : List ℚ} (hr : r.length = c) (hn : r.Nodup) (σ : Equiv.Perm (Fin c)) : (shuffle c 0 r σ).Nodup := by
  rw [shuffle, List.nodup_ofFn]
  intro i j hij
  have h1 : (σ i : Nat) < r.length := hr ▸ (σ i).2
  have h2 : (σ j : Nat) < r.length := hr ▸ (σ j).2
  simp only [List.getD_eq_getElem _ _ h1, List.getD_eq_getElem _ _ h2] at hij
  exact σ.injective (Fin.ext ((List.Nodup.getElem_inj_iff hn).1 hij))

/-- **C150**: a random order of the labels has a ranking loss of one half, on average over all orders (without ties; every sample has a relevant and an irrelevant label). -/
theorem C150_ranking_loss (hc : 1 < c) (h : Scored c y s) (hd : ∀ r ∈ s, r.Nodup) (hb : ∀ r ∈ y, 1 ∈ r ∧ 0 ∈ r) (w : Option (List ℚ)) (hw : FitWeights y.length w)
    (hs : ∑ i ∈ Finset.range y.length, weight w i ≠ 0) :
    ∃ l, (∀ σ, labelRankingLoss c y (s.map (fun r => shuffle c 0 r σ)) w = .ok (some (l σ))) ∧ averageOver c l = 1 / 2 := by
  let a : Equiv.Perm (Fin c) → Nat → ℚ := fun σ i =>
    pairStatistic (positives none (y.getD i []) (shuffle c 0 (s.getD i []) σ)) (negatives none (y.getD i []) (shuffle c 0 (s.getD i []) σ))
  have hrow : ∀ i < y.length, y.getD i [] ∈ y ∧ (y.getD i []).length = c ∧ s.getD i [] ∈ s := by
    intro i hi
    have hi' : i < s.length := h.len ▸ hi
    rw [List.getD_eq_getElem _ _ hi, List.getD_eq_getElem _ _ hi']
    exact ⟨List.getElem_mem hi, h.yrow _ (List.getElem_mem hi), List.getElem_mem hi'⟩
  have ha : ∀ σ, ∀ i < y.length, rocAucScore (y.getD i []) ((s.map (fun r => shuffle c 0 r σ)).getD i []) none = .ok (a σ i) := by
    intro σ i hi
    obtain ⟨m1, m2, m3⟩ := hrow i hi
    have hi' : i < s.length := h.len ▸ hi
    have e : (s.map (fun r => shuffle c 0 r σ)).getD i [] = shuffle c 0 (s.getD i []) σ := by
      rw [List.getD_eq_getElem _ _ (by simpa using hi'), List.getD_eq_getElem _ _ hi', List.getElem_map]
    rw [e]
    have hl : (y.getD i []).length = (shuffle c 0 (s.getD i []) σ).length := by rw [m2]; simp [shuffle]
    obtain ⟨b1, b0⟩ := hb _ m1
    exact C38_auc hl (.inr ⟨List.ne_nil_of_mem b1, .inl (h.zo _ m1)⟩) ((scoresWith_ne hl).2 ⟨1, b1, by simp⟩) ((scoresWith_ne hl).2 ⟨0, b0, by simp⟩)
  refine ⟨fun σ => 1 - mean y.length (weight w) (a σ), fun σ => ?_, ?_⟩
  · refine SameMeasure.C144_loss_is_missing_area hc (scored_shuffle h σ) ?_ w hw hs (a σ) (ha σ)
    intro r hr
    obtain ⟨r', hr', rfl⟩ := List.mem_map.1 hr
    exact shuffle_nodup (h.srow _ hr') (hd _ hr') σ
  · have hav : ∀ i < y.length, ∑ σ, a σ i = (c.factorial : ℚ) / 2 := by
      intro i hi
      obtain ⟨m1, m2, m3⟩ := hrow i hi
      obtain ⟨b1, b0⟩ := hb _ m1
      have := sum_statistic m2 (fun j => (s.getD i []).getD j 0) (fun c => decide (c = 1)) ⟨1, b1, by simp⟩ ⟨0, b0, by simp⟩
      have e : (fun c : Int => decide (c ≠ 1)) = fun c => !decide (c = 1) := by funext c; simp
      simp only [a, positives, negatives, Option.getD_none, shuffle, e]
      exact this
    unfold averageOver mean
    rw [Finset.sum_sub_distrib, ← Finset.sum_div, Finset.sum_comm]
    have e2 : ∑ i ∈ Finset.range y.length, ∑ σ, weight w i * a σ i = ∑ i ∈ Finset.range y.length, weight w i * ((c.factorial : ℚ) / 2) :=
      Finset.sum_congr rfl fun i hi => by rw [← Finset.mul_sum, hav i (Finset.mem_range.1 hi)]
    rw [e2, ← Finset.sum_mul]
    have := factorial_ne c
    simp only [Finset.sum_const, Finset.card_univ, Fintype.card_perm, Fintype.card_fin, nsmul_eq_mul, mul_one]
    field_simp
    norm_num

/-- All labels of every sample have the same score. -/
def Flat (s : List (List ℚ)) : Prop := ∀ r ∈ s, ∃ v, ∀ x ∈ r, x = v

theorem scoresWith_mem {P : Int → Bool} {y : List Int} {s : List ℚ} {x : ℚ} (h : x ∈ scoresWith P y s) : x ∈ s := by
  obtain ⟨p, hp, rfl⟩ := List.mem_map.1 h
  exact (List.of_mem_zip (List.mem_filter.1 hp).1).2

theorem reach_const {l : List ℚ} {v : ℚ} (h : ∀ x ∈ l, x = v) : reach l v = l.length := by
  unfold reach
  rw [List.countP_eq_length]
  intro x hx
  simp [h x hx]

/-- **C150**: if all labels of every sample have the same score, the coverage error is the number of labels and the ranking average precision is the fraction of relevant
labels; the ranking loss is 1, because it counts a tie as a mistake. (Every sample has a relevant and an irrelevant label.) -/
theorem C150_flat (hc : 1 < c) (h : Scored c y s) (hf : Flat s) (hb : ∀ r ∈ y, 1 ∈ r ∧ 0 ∈ r) (w : Option (List ℚ)) (hw : FitWeights y.length w)
    (hs : ∑ i ∈ Finset.range y.length, weight w i ≠ 0) :
    labelRankingLoss c y s w = .ok (some 1) ∧ coverageError c y s w = .ok (some c) ∧
    lrapScore c y c s none = .ok (some ((∑ i ∈ Finset.range y.length, ((y.getD i []).count 1 : ℚ) / c) / y.length)) := by
  have hrow : ∀ i < y.length, y.getD i [] ∈ y ∧ (y.getD i []).length = c ∧ s.getD i [] ∈ s ∧ (s.getD i []).length = c := by
    intro i hi
    have hi' : i < s.length := h.len ▸ hi
    rw [List.getD_eq_getElem _ _ hi, List.getD_eq_getElem _ _ hi']
    exact ⟨List.getElem_mem hi, h.yrow _ (List.getElem_mem hi), List.getElem_mem hi', h.srow _ (List.getElem_mem hi')⟩
  have hmean : ∀ (w : Nat → ℚ) (n : Nat) (f : Nat → ℚ) (k : ℚ), ∑ i ∈ Finset.range n, w i ≠ 0 → (∀ i < n, f i = k) → mean n w f = k := by
    intro w n f k h0 hk
    unfold mean
    rw [Finset.sum_congr rfl fun i hi => by rw [hk i (Finset.mem_range.1 hi)], ← Finset.sum_mul]
    field_simp
  have hcov : ∀ i < y.length, IsCoverage (relScores y s i) (s.getD i []) c := by
    intro i hi
    obtain ⟨m1, m2, m3, m4⟩ := hrow i hi
    obtain ⟨v, hv⟩ := hf _ m3
    have hr : ∀ r ∈ relScores y s i, reach (s.getD i []) r = c := by
      intro r hr
      rw [hv r (scoresWith_mem hr), reach_const hv, m4]
    refine ⟨fun r hr' => (hr r hr').le, .inr ?_⟩
    obtain ⟨r, hr'⟩ := List.exists_mem_of_ne_nil _ ((scoresWith_ne (P := fun c => decide (c = 1)) (m2.trans m4.symm)).2 ⟨1, (hb _ m1).1, by simp⟩)
    exact ⟨r, hr', hr r hr'⟩
  refine ⟨?_, ?_, ?_⟩
  · rw [SameMeasure.loss_mean hc h w hw hs, hmean _ _ _ 1 hs]
    intro i hi
    obtain ⟨m1, m2, m3, m4⟩ := hrow i hi
    obtain ⟨v, hv⟩ := hf _ m3
    obtain ⟨b1, b0⟩ := hb _ m1
    rw [C40_row _ _ (m2.trans m4.symm)]
    obtain ⟨A, hA⟩ : ∃ A, scoresWith (fun c => decide (c ≠ 0)) (y.getD i []) (s.getD i []) = A := ⟨_, rfl⟩
    obtain ⟨B, hB⟩ : ∃ B, scoresWith (fun c => decide (c = 0)) (y.getD i []) (s.getD i []) = B := ⟨_, rfl⟩
    have hA1 : A ≠ [] := hA ▸ (scoresWith_ne (m2.trans m4.symm)).2 ⟨1, b1, by simp⟩
    have hB1 : B ≠ [] := hB ▸ (scoresWith_ne (m2.trans m4.symm)).2 ⟨0, b0, by simp⟩
    rw [hA, hB]
    have vA : ∀ x ∈ A, x = v := fun x hx => hv x (scoresWith_mem (hA ▸ hx))
    have vB : ∀ x ∈ B, x = v := fun x hx => hv x (scoresWith_mem (hB ▸ hx))
    have n1 : (A.length : ℚ) ≠ 0 := by exact_mod_cast (List.length_pos_of_ne_nil hA1).ne'
    have n2 : (B.length : ℚ) ≠ 0 := by exact_mod_cast (List.length_pos_of_ne_nil hB1).ne'
    have e1 : ∀ r ∈ A, (B.countP (fun s => decide (r ≤ s)) : ℚ) = B.length := by
      intro r hr
      have := reach_const vB
      unfold reach at this
      rw [vA r hr, this]
    unfold wrongPairs
    rw [List.map_congr_left e1]
    simp only [List.map_const', List.sum_replicate, nsmul_eq_mul]
    field_simp
  · rw [RankMetrics.C64_coverage hc h w hw hs (fun _ => c) hcov, hmean _ _ _ (c : ℚ) hs (fun _ _ => rfl)]
  · rw [RankMetrics.C65_lrap h]
    congr 2
    unfold mean
    simp only [one_mul, Finset.sum_const, Finset.card_range, nsmul_eq_mul, mul_one]
    congr 1
    refine Finset.sum_congr rfl fun i hi => ?_
    obtain ⟨m1, m2, m3, m4⟩ := hrow i (Finset.mem_range.1 hi)
    obtain ⟨v, hv⟩ := hf _ m3
    have hne : relScores y s i ≠ [] := (scoresWith_ne (P := fun c => decide (c = 1)) (m2.trans m4.symm)).2 ⟨1, (hb _ m1).1, by simp⟩
    have hlen : (relScores y s i).length = (y.getD i []).count 1 := by
      rw [relScores, scoresWith_length _ _ _ (m2.trans m4.symm), List.count_eq_length_filter]
      congr 1
    have vA : ∀ x ∈ relScores y s i, x = v := fun x hx => hv x (scoresWith_mem hx)
    unfold Spec.samplePrecision avgPrecision
    rw [if_neg hne]
    have e1 : ∀ t ∈ relScores y s i, precisionAt (relScores y s i) (s.getD i []) t = ((y.getD i []).count 1 : ℚ) / c := by
      intro t ht
      rw [vA t ht, precisionAt, reach_const vA, reach_const hv, hlen, m4]
    rw [List.map_congr_left e1]
    have n1 : ((relScores y s i).length : ℚ) ≠ 0 := by exact_mod_cast (List.length_pos_of_ne_nil hne).ne'
    simp only [List.map_const', List.sum_replicate, nsmul_eq_mul]
    field_simp
/-- The hypotheses of `C150_ranking_loss` and of `C150_flat` can be met. -/
example : Scored 3 [[1, 0, 0], [0, 1, 1]] [[3, 1, 2], [5, 4, 6]] ∧ (∀ r ∈ ([[3, 1, 2], [5, 4, 6]] : List (List ℚ)), r.Nodup) ∧
    (∀ r ∈ ([[1, 0, 0], [0, 1, 1]] : List (List Int)), 1 ∈ r ∧ 0 ∈ r) ∧ Scored 3 [[1, 0, 0], [0, 1, 1]] [[1, 1, 1], [0, 0, 0]] ∧ Flat [[1, 1, 1], [0, 0, 0]] :=
  ⟨⟨by simp, by simp, by simp, by simp, by simp [ZeroOne]⟩, by decide +kernel, by simp, ⟨by simp, by simp, by simp, by simp, by simp [ZeroOne]⟩, by simp [Flat]⟩
end

end Alipy.Chance

import Verif.Proof.Metrics
import Mathlib.Tactic.NormNum
/-!
# Properties of accuracy, zero-one loss and Hamming loss (C37, C39)
-/
namespace Alipy

/-! ## C37 -/

/-- **C37**: on label vectors the accuracy is the weighted fraction of the positions that agree. -/
theorem C37_accuracy_vectors {a b : List Int} (h : a.length = b.length) (w : Option (List ℚ)) (hw : Spec.FitWeights a.length w)
    (hs : ∑ i ∈ Finset.range a.length, Spec.weight w i ≠ 0) :
    accuracyScore (.vec a) (.vec b) w = .ok (some (Spec.fraction a.length (Spec.weight w) (fun i => a[i]? = b[i]?))) := by
  replace hw := weightsFit_iff.2 hw
  obtain ⟨t, ht, hne⟩ := checkTargets_vec h
  have key := accuracyFlat_eq h w hw hs
  unfold accuracyScore
  rw [ht]
  cases t with
  | multilabel => exact absurd rfl hne
  | binary => exact key
  | multiclass => exact key

/-- **C37**: the accuracy is in `[0, 1]`, and 1 exactly if every position of positive weight agrees. -/
theorem C37_accuracy_range {a b : List Int} (h : a.length = b.length) (w : Option (List ℚ)) (hw : Spec.FitWeights a.length w)
    (hpos : ∀ i < a.length, 0 ≤ Spec.weight w i) (hs : ∑ i ∈ Finset.range a.length, Spec.weight w i ≠ 0) :
    ∃ q, accuracyScore (.vec a) (.vec b) w = .ok (some q) ∧ 0 ≤ q ∧ q ≤ 1 ∧
      (q = 1 ↔ ∀ i < a.length, 0 < Spec.weight w i → a[i]? = b[i]?) :=
  ⟨_, C37_accuracy_vectors h w hw hs, fraction_bounds _ hpos hs⟩

/-- **C37**: on label matrices with at most two values (indicator matrices) it is the weighted fraction of the rows that agree. -/
theorem C37_accuracy_rows {c : Nat} (hc : 1 < c) {a b : List (List Int)} (h : a.length = b.length) (ha2 : Spec.AtMostTwoValues a.flatten)
    (hb2 : Spec.AtMostTwoValues b.flatten) (w : Option (List ℚ)) (hw : Spec.FitWeights a.length w)
    (hs : ∑ i ∈ Finset.range a.length, Spec.weight w i ≠ 0) :
    accuracyScore (.mat c a) (.mat c b) w = .ok (some (Spec.fraction a.length (Spec.weight w) (fun i => a[i]? = b[i]?))) := by
  replace hw := weightsFit_iff.2 hw
  replace ha2 := numUnique_le_two.2 ha2
  replace hb2 := numUnique_le_two.2 hb2
  have hne : a ≠ [] := by rintro rfl; simp at hs
  have hneb : b ≠ [] := by rintro rfl; exact hne (List.length_eq_zero_iff.1 h)
  have key := npAverage_fraction a b (fun x y => decide (x = y)) (fun i => a[i]? = b[i]?) h (by
    intro i h1 h2; simp [h1, h2]) w hw hs
  have ht : checkTargets (.mat c a) (.mat c b) = .ok .multilabel := by
    have e1 : typeOfTarget (.mat c a) = .ok .multilabel := by simp [typeOfTarget, Tgt.ravel, ha2, hc, hne]
    have e2 : typeOfTarget (.mat c b) = .ok .multilabel := by simp [typeOfTarget, Tgt.ravel, hb2, hc, hneb]
    simp [checkTargets, Tgt.len, h, e1, e2, joinType]
  unfold accuracyScore
  rw [ht]
  simp only
  rw [if_neg (by simp [hw]), if_neg (by simp)]
  exact key

/-- A two-valued truth and a prediction with three values (say `-1, 0, 1`) of the same shape cannot be compared at all. -/
theorem C37_mixed_violation {c : Nat} (hc : 1 < c) {a b : List (List Int)} (hne : a ≠ []) (h : a.length = b.length)
    (ha2 : Spec.AtMostTwoValues a.flatten) (hb2 : ¬ Spec.AtMostTwoValues b.flatten) (w : Option (List ℚ)) :
    accuracyScore (.mat c a) (.mat c b) w = .error .valueError := by
  replace ha2 := numUnique_le_two.2 ha2
  replace hb2 := two_lt_numUnique.2 hb2
  have e1 : typeOfTarget (.mat c a) = .ok .multilabel := by simp [typeOfTarget, Tgt.ravel, ha2, hc, hne]
  have e2 : typeOfTarget (.mat c b) = .ok .multiclass := by simp [typeOfTarget, Tgt.ravel, hb2]
  simp [accuracyScore, checkTargets, Tgt.len, h, e1, e2, joinType]

/-- With three values on both sides the cells are counted instead of the rows, and weights of the samples are refused. -/
theorem C37_three_values_violation {c : Nat} {a b : List (List Int)} (h : a.length = b.length)
    (hl : a.flatten.length = b.flatten.length) (ha2 : ¬ Spec.AtMostTwoValues a.flatten) (hb2 : ¬ Spec.AtMostTwoValues b.flatten) :
    accuracyScore (.mat c a) (.mat c b) none =
      .ok (some (Spec.fraction a.flatten.length (fun _ => 1) (fun i => a.flatten[i]? = b.flatten[i]?))) ∧
    ∀ w, w.length = a.length → a.flatten.length ≠ a.length → accuracyScore (.mat c a) (.mat c b) (some w) = .error .valueError := by
  replace ha2 := two_lt_numUnique.2 ha2
  replace hb2 := two_lt_numUnique.2 hb2
  have e1 : typeOfTarget (.mat c a) = .ok .multiclass := by simp [typeOfTarget, Tgt.ravel, ha2]
  have e2 : typeOfTarget (.mat c b) = .ok .multiclass := by simp [typeOfTarget, Tgt.ravel, hb2]
  have ht : checkTargets (.mat c a) (.mat c b) = .ok .multiclass := by simp [checkTargets, Tgt.len, h, e1, e2, joinType]
  have hn : a.flatten.length ≠ 0 := by
    intro hc; rw [List.length_eq_zero_iff] at hc; rw [hc] at ha2; simp [numUnique] at ha2
  have hs : ∑ i ∈ Finset.range a.flatten.length, Spec.weight none i ≠ 0 := by
    simp only [Spec.weight, Finset.sum_const, Finset.card_range, nsmul_eq_mul, mul_one]
    exact_mod_cast hn
  constructor
  · have key := accuracyFlat_eq hl none rfl hs
    unfold accuracyScore
    rw [ht]
    exact key
  · intro w hw hne
    unfold accuracyScore
    rw [ht]
    change accuracyFlat a.flatten b.flatten (some w) = _
    unfold accuracyFlat
    rw [if_pos (Or.inr (by simp only [weightsFit, hw]; exact decide_eq_false (fun h => hne h.symm)))]

/-- **C37**: `zero_one_loss` is one minus the accuracy, for all arguments. -/
theorem C37_zero_one_loss (a b : Tgt) (w : Option (List ℚ)) {q : ℚ} (h : accuracyScore a b w = .ok (some q)) :
    zeroOneLoss a b true w = .ok (some (1 - q)) := by
  simp [zeroOneLoss, h]

/-- **C37**: on vectors it is the weighted fraction of the positions that differ. -/
theorem C37_zero_one_fraction {a b : List Int} (h : a.length = b.length) (w : Option (List ℚ)) (hw : Spec.FitWeights a.length w)
    (hs : ∑ i ∈ Finset.range a.length, Spec.weight w i ≠ 0) :
    zeroOneLoss (.vec a) (.vec b) true w = .ok (some (Spec.fraction a.length (Spec.weight w) (fun i => a[i]? ≠ b[i]?))) := by
  rw [C37_zero_one_loss _ _ w (C37_accuracy_vectors h w hw hs)]
  congr 2
  unfold Spec.fraction
  rw [eq_div_iff hs, sub_mul, div_mul_cancel₀ _ hs, one_mul, ← Finset.sum_sub_distrib]
  apply Finset.sum_congr rfl
  intro i _
  by_cases hi : a[i]? = b[i]? <;> simp [hi]

/-- `zero_one_loss(normalize=False)` is not the number of misclassifications: with `c` of `n` right it is `n - c / n` instead of
`n - c`, wrong as soon as `n ≥ 2` and `c ≥ 1`. -/
theorem C37_count_violation {a b : List Int} (h : a.length = b.length) (hn : 2 ≤ a.length)
    (hc : ∃ i, i < a.length ∧ a[i]? = b[i]?) : ∃ q, zeroOneLoss (.vec a) (.vec b) false none = .ok (some q) ∧
      q ≠ ∑ i ∈ Finset.range a.length, if a[i]? ≠ b[i]? then 1 else 0 := by
  have hl : (a.length : ℚ) ≠ 0 := by
    have : a.length ≠ 0 := by omega
    exact_mod_cast this
  have hs : ∑ i ∈ Finset.range a.length, Spec.weight none i ≠ 0 := by
    simpa [Spec.weight] using hl
  refine ⟨_, by simp only [zeroOneLoss, C37_accuracy_vectors h none (by simp [Spec.FitWeights]) hs]; rfl, ?_⟩
  set c := ∑ i ∈ Finset.range a.length, (if a[i]? = b[i]? then (1:ℚ) else 0) with hcdef
  have hsum : ∑ i ∈ Finset.range a.length, (if a[i]? ≠ b[i]? then (1:ℚ) else 0) = a.length - c := by
    rw [hcdef, eq_sub_iff_add_eq, ← Finset.sum_add_distrib]
    have : ∀ i ∈ Finset.range a.length, ((if a[i]? ≠ b[i]? then (1:ℚ) else 0) + if a[i]? = b[i]? then (1:ℚ) else 0) = 1 := by
      intro i _
      by_cases hi : a[i]? = b[i]? <;> simp [hi]
    rw [Finset.sum_congr rfl this]; simp
  have hcpos : 0 < c := by
    obtain ⟨i, hi, he⟩ := hc
    apply Finset.sum_pos'
    · intro j _; split <;> norm_num
    · exact ⟨i, Finset.mem_range.2 hi, by simp [he]⟩
  rw [hsum]
  simp only [Tgt.len]
  unfold Spec.fraction
  simp only [Spec.weight]
  rw [← hcdef]
  simp only [Finset.sum_const, Finset.card_range, nsmul_eq_mul, mul_one]
  intro he
  have h2 : (2:ℚ) ≤ a.length := by exact_mod_cast hn
  have : c / a.length = c := by linarith
  rw [div_eq_iff hl] at this
  nlinarith

example : accuracyScore (.vec [1, 0, 1]) (.vec [1, 1, 1]) (some [1, 2, 1]) = .ok (some (1/2)) := by
  rw [C37_accuracy_vectors (a := [1, 0, 1]) (b := [1, 1, 1]) rfl (some [1, 2, 1]) (by decide) (by norm_num [Finset.sum_range_succ, Spec.weight])]
  norm_num [Spec.fraction, Finset.sum_range_succ, Spec.weight]

/-! ## C39 -/

theorem countP_zip_eq_range {a b : List Int} (h : a.length = b.length) :
    ((a.zip b).countP (fun p => decide (p.1 ≠ p.2)) : ℚ) = ∑ i ∈ Finset.range a.length, if a[i]? ≠ b[i]? then 1 else 0 := by
  rw [countP_eq_sum, sum_eq_range]
  have hl : ((a.zip b).map (fun p => if decide (p.1 ≠ p.2) = true then (1:ℚ) else 0)).length = a.length := by simp [h]
  rw [hl]
  apply Finset.sum_congr rfl
  intro i hi
  have h1 : i < a.length := Finset.mem_range.1 hi
  have h2 : i < b.length := by omega
  rw [List.getD_eq_getElem _ _ (by simp; omega)]
  simp [h1, h2]

/-- **C39**, vectors: the Hamming loss is the fraction of the positions that differ. -/
theorem C39_hamming_vectors {a b : List Int} (h : a.length = b.length) (hne : a ≠ []) :
    hammingLoss (.vec a) (.vec b) = .ok (some (Spec.fraction a.length (fun _ => 1) (fun i => a[i]? ≠ b[i]?))) := by
  obtain ⟨t, ht, hne'⟩ := checkTargets_vec h
  have hl : a.length ≠ 0 := by simpa using hne
  unfold hammingLoss
  rw [ht]
  simp only [neCount]
  have hq : ((((a.zip b).countP (fun p => decide (p.1 ≠ p.2)) : Nat) : ℚ)) / (Tgt.vec a).len =
      Spec.fraction a.length (fun _ => 1) (fun i => a[i]? ≠ b[i]?) := by
    rw [countP_zip_eq_range h]; simp [Spec.fraction, Tgt.len]
  cases t with
  | multilabel => exact absurd rfl hne'
  | binary => rw [if_neg (by simpa [Tgt.len] using hl)]; rw [hq]
  | multiclass => rw [if_neg (by simpa [Tgt.len] using hl)]; rw [hq]

/-- A rectangular matrix. -/
def Spec.Rect (c : Nat) (a : List (List Int)) : Prop := ∀ r ∈ a, r.length = c

theorem Spec.Rect.flatten_length {c : Nat} : ∀ {a : List (List Int)}, Spec.Rect c a → a.flatten.length = a.length * c
  | [], _ => by simp
  | r :: a, h => by
    have := Spec.Rect.flatten_length (c := c) (a := a) (fun s hs => h s (List.mem_cons_of_mem _ hs))
    rw [List.flatten_cons, List.length_append, this, h r (by simp), List.length_cons, Nat.succ_mul, Nat.add_comm]

/-- **C39**, indicator matrices (at most two values): the fraction of the cells that differ. (Missing for the full statement: matrices
with three values, where it is false, see `C39_three_values_violation`.) -/
theorem C39_hamming_matrices_partial {c : Nat} (hc : 1 < c) {a b : List (List Int)} (hne : a ≠ []) (h : a.length = b.length)
    (ha : Spec.Rect c a) (hb : Spec.Rect c b) (ha2 : Spec.AtMostTwoValues a.flatten) (hb2 : Spec.AtMostTwoValues b.flatten) :
    hammingLoss (.mat c a) (.mat c b) =
      .ok (some (Spec.fraction (a.length * c) (fun _ => 1) (fun i => a.flatten[i]? ≠ b.flatten[i]?))) := by
  replace ha2 := numUnique_le_two.2 ha2
  replace hb2 := numUnique_le_two.2 hb2
  have hneb : b ≠ [] := by rintro rfl; exact hne (List.length_eq_zero_iff.1 h)
  have e1 : typeOfTarget (.mat c a) = .ok .multilabel := by simp [typeOfTarget, Tgt.ravel, ha2, hc, hne]
  have e2 : typeOfTarget (.mat c b) = .ok .multilabel := by simp [typeOfTarget, Tgt.ravel, hb2, hc, hneb]
  have ht : checkTargets (.mat c a) (.mat c b) = .ok .multilabel := by simp [checkTargets, Tgt.len, h, e1, e2, joinType]
  have hl : a.flatten.length = b.flatten.length := by rw [ha.flatten_length, hb.flatten_length, h]
  have hq := countP_zip_eq_range hl
  unfold hammingLoss
  rw [ht]
  simp only [neCount, if_true]
  rw [hq, ← ha.flatten_length]
  simp [Spec.fraction]

/-- **C39**: the loss is symmetric, for vectors. -/
theorem C39_symmetric {a b : List Int} (h : a.length = b.length) (hne : a ≠ []) :
    hammingLoss (.vec a) (.vec b) = hammingLoss (.vec b) (.vec a) := by
  have hneb : b ≠ [] := by rintro rfl; exact hne (List.length_eq_zero_iff.1 h)
  rw [C39_hamming_vectors h hne, C39_hamming_vectors h.symm hneb, h]
  have : ∀ i : Nat, (b[i]? ≠ a[i]?) ↔ (a[i]? ≠ b[i]?) := fun i => ne_comm
  simp only [this]

/-- **C39**: between 0 and 1, and 0 exactly for equal vectors. -/
theorem C39_range {a b : List Int} (h : a.length = b.length) (hne : a ≠ []) :
    ∃ q, hammingLoss (.vec a) (.vec b) = .ok (some q) ∧ 0 ≤ q ∧ q ≤ 1 ∧ (q = 0 ↔ a = b) := by
  have hl : (a.length : ℚ) ≠ 0 := by
    have : a.length ≠ 0 := by simpa using hne
    exact_mod_cast this
  have hs : ∑ i ∈ Finset.range a.length, (1:ℚ) ≠ 0 := by simpa using hl
  have hb := fraction_bounds (n := a.length) (w := fun _ => 1) (fun i => a[i]? ≠ b[i]?) (by simp) hs
  refine ⟨_, C39_hamming_vectors h hne, hb.1, hb.2.1, ?_⟩
  unfold Spec.fraction
  rw [div_eq_zero_iff]
  simp only [hs, or_false]
  rw [Finset.sum_eq_zero_iff_of_nonneg (by intro i _; split <;> norm_num)]
  constructor
  · intro hz
    apply List.ext_getElem? 
    intro i
    by_cases hi : i < a.length
    · have := hz i (Finset.mem_range.2 hi)
      by_contra hc
      simp [hc] at this
    · rw [List.getElem?_eq_none (by omega), List.getElem?_eq_none (by omega)]
  · rintro rfl i _
    simp

/-- **C39**: the loss is symmetric, for indicator matrices of the same shape. -/
theorem C39_symmetric_matrices_partial {c : Nat} (hc : 1 < c) {a b : List (List Int)} (hne : a ≠ []) (h : a.length = b.length)
    (ha : Spec.Rect c a) (hb : Spec.Rect c b) (ha2 : Spec.AtMostTwoValues a.flatten) (hb2 : Spec.AtMostTwoValues b.flatten) :
    hammingLoss (.mat c a) (.mat c b) = hammingLoss (.mat c b) (.mat c a) := by
  have hneb : b ≠ [] := by rintro rfl; exact hne (List.length_eq_zero_iff.1 h)
  rw [C39_hamming_matrices_partial hc hne h ha hb ha2 hb2, C39_hamming_matrices_partial hc hneb h.symm hb ha hb2 ha2, h]
  have : ∀ i : Nat, (b.flatten[i]? ≠ a.flatten[i]?) ↔ (a.flatten[i]? ≠ b.flatten[i]?) := fun i => ne_comm
  simp only [this]

theorem eq_of_flatten_eq {c : Nat} (hc : 0 < c) : ∀ {a b : List (List Int)}, Spec.Rect c a → Spec.Rect c b → a.flatten = b.flatten → a = b
  | [], [], _, _, _ => rfl
  | [], r :: b, _, hb, h => by
    have hr := hb r (by simp)
    have h' := congrArg List.length h
    rw [List.flatten_nil, List.flatten_cons, List.length_append, hr, List.length_nil] at h'
    omega
  | r :: a, [], ha, _, h => by
    have hr := ha r (by simp)
    have h' := congrArg List.length h
    rw [List.flatten_nil, List.flatten_cons, List.length_append, hr, List.length_nil] at h'
    omega
  | r :: a, s :: b, ha, hb, h => by
    simp only [List.flatten_cons] at h
    obtain ⟨h1, h2⟩ := List.append_inj h (by rw [ha r (by simp), hb s (by simp)])
    rw [h1, eq_of_flatten_eq hc (fun t ht => ha t (by simp [ht])) (fun t ht => hb t (by simp [ht])) h2]

/-- **C39**: between 0 and 1, and 0 exactly for equal matrices, for indicator matrices of the same shape. -/
theorem C39_range_matrices_partial {c : Nat} (hc : 1 < c) {a b : List (List Int)} (hne : a ≠ []) (h : a.length = b.length)
    (ha : Spec.Rect c a) (hb : Spec.Rect c b) (ha2 : Spec.AtMostTwoValues a.flatten) (hb2 : Spec.AtMostTwoValues b.flatten) :
    ∃ q, hammingLoss (.mat c a) (.mat c b) = .ok (some q) ∧ 0 ≤ q ∧ q ≤ 1 ∧ (q = 0 ↔ a = b) := by
  have hfl : a.flatten.length = b.flatten.length := by rw [ha.flatten_length, hb.flatten_length, h]
  have hfn : a.flatten ≠ [] := by
    intro h0
    have h1 := ha.flatten_length
    rw [h0, List.length_nil] at h1
    have h2 : a.length ≠ 0 := by simpa using hne
    have : 0 < a.length * c := Nat.mul_pos (Nat.pos_of_ne_zero h2) (by omega)
    omega
  obtain ⟨q, h1, h2, h3, h4⟩ := C39_range hfl hfn
  refine ⟨q, ?_, h2, h3, h4.trans ⟨eq_of_flatten_eq (by omega) ha hb, fun h => by rw [h]⟩⟩
  rw [C39_hamming_matrices_partial hc hne h ha hb ha2 hb2]
  rw [C39_hamming_vectors hfl hfn, ha.flatten_length] at h1
  exact h1

/-- On matrices with more than two values the number of differing cells is divided by the number of rows: if everything differs the loss
is the number of columns. -/
theorem C39_three_values_violation {c : Nat} {a b : List (List Int)} (hne : a ≠ []) (h : a.length = b.length)
    (ha : Spec.Rect c a) (hb : Spec.Rect c b) (ha2 : ¬ Spec.AtMostTwoValues a.flatten) (hb2 : ¬ Spec.AtMostTwoValues b.flatten)
    (hd : ∀ i < a.flatten.length, a.flatten[i]? ≠ b.flatten[i]?) : hammingLoss (.mat c a) (.mat c b) = .ok (some c) := by
  replace ha2 := two_lt_numUnique.2 ha2
  replace hb2 := two_lt_numUnique.2 hb2
  have e1 : typeOfTarget (.mat c a) = .ok .multiclass := by simp [typeOfTarget, Tgt.ravel, ha2]
  have e2 : typeOfTarget (.mat c b) = .ok .multiclass := by simp [typeOfTarget, Tgt.ravel, hb2]
  have ht : checkTargets (.mat c a) (.mat c b) = .ok .multiclass := by simp [checkTargets, Tgt.len, h, e1, e2, joinType]
  have hl : a.flatten.length = b.flatten.length := by rw [ha.flatten_length, hb.flatten_length, h]
  have hq := countP_zip_eq_range hl
  have hn : a.length ≠ 0 := by simpa using hne
  have hsum : ∑ i ∈ Finset.range a.flatten.length, (if a.flatten[i]? ≠ b.flatten[i]? then (1:ℚ) else 0) = a.length * c := by
    rw [Finset.sum_congr rfl (g := fun _ => (1:ℚ)) (by intro i hi; rw [if_pos (hd i (Finset.mem_range.1 hi))])]
    rw [Finset.sum_const, Finset.card_range, ha.flatten_length]; simp
  unfold hammingLoss
  rw [ht]
  simp only [neCount, if_true]
  rw [if_neg (by simpa [Tgt.len] using hn), hq, hsum]
  simp only [Tgt.len, Except.ok.injEq, Option.some.injEq]
  have : (a.length : ℚ) ≠ 0 := by exact_mod_cast hn
  field_simp

example : hammingLoss (.mat 2 [[0, 1], [2, 3]]) (.mat 2 [[1, 2], [3, 4]]) = .ok (some 2) :=
  C39_three_values_violation (by decide) rfl (by unfold Spec.Rect; decide) (by unfold Spec.Rect; decide) (by decide) (by decide)
    (by decide)

/-- A column compared with a vector is broadcast: the loss of identical labels is the number of pairs of examples with different labels, divided by the number of examples, so more than 0
as soon as there are two different labels. -/
theorem C39_column_violation {v : List Int} (hv : v ≠ []) :
    hammingLoss (.mat 1 (v.map (fun x => [x]))) (.vec v) = .ok (some (((v.map (fun x => v.countP (fun y => x ≠ y))).sum : Nat) / (v.length : Nat))) ∧
    ((∃ a ∈ v, ∃ b ∈ v, a ≠ b) → (0 : ℚ) < ((v.map (fun x => v.countP (fun y => x ≠ y))).sum : Nat) / (v.length : Nat)) := by
  have hf : (v.map (fun x => [x])).flatten = v := by
    induction v with
    | nil => rfl
    | cons a l ih => cases l with
      | nil => rfl
      | cons b l => simpa using ih (by simp)
  have ht : ∃ t, checkTargets (.mat 1 (v.map (fun x => [x]))) (.vec v) = .ok t ∧ t ≠ .multilabel := by
    unfold checkTargets
    rw [if_neg (by simp [Tgt.len])]
    unfold typeOfTarget
    simp only [Tgt.ravel, hf]
    by_cases h : numUnique v ≤ 2
    · refine ⟨.binary, ?_, by simp⟩
      simp [h, hv, joinType]
    · refine ⟨.multiclass, ?_, by simp⟩
      simp [h, joinType]
  obtain ⟨t, ht, hm⟩ := ht
  have hl : v.length ≠ 0 := by simpa using hv
  refine ⟨?_, ?_⟩
  · unfold hammingLoss
    rw [ht]
    simp only [neCount, hf]
    cases t with
    | multilabel => exact absurd rfl hm
    | binary => simp [Tgt.len, hv]
    | multiclass => simp [Tgt.len, hv]
  · rintro ⟨a, ha, b, hb, hab⟩
    apply div_pos
    · have h1 : 0 < v.countP (fun y => a ≠ y) := List.countP_pos_iff.2 ⟨b, hb, by simpa using hab⟩
      have h2 : v.countP (fun y => a ≠ y) ≤ (v.map (fun x => v.countP (fun y => x ≠ y))).sum :=
        List.single_le_sum (by simp) _ (List.mem_map.2 ⟨a, ha, rfl⟩)
      exact_mod_cast lt_of_lt_of_le h1 h2
    · exact_mod_cast Nat.pos_of_ne_zero hl

example : hammingLoss (.mat 1 [[0], [0], [1], [1]]) (.vec [0, 0, 1, 1]) = .ok (some 2) := by
  have h := (C39_column_violation (v := [0, 0, 1, 1]) (by decide)).1
  rw [show (([0, 0, 1, 1] : List Int).map (fun x => ([0, 0, 1, 1] : List Int).countP (fun y => x ≠ y))).sum = 8 by decide] at h
  simpa using h.trans (by norm_num)

example : hammingLoss (.vec [1, 2, 3]) (.vec [1, 0, 3]) = .ok (some (1/3)) := by
  rw [C39_hamming_vectors (a := [1, 2, 3]) (b := [1, 0, 3]) rfl (by decide)]
  norm_num [Spec.fraction, Finset.sum_range_succ]

end Alipy

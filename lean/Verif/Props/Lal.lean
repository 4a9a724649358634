import Verif.Model.Lal
import Verif.Spec.Lal
import Verif.Props.Pool
import Verif.Proof.Split
import Mathlib.Analysis.Real.Sqrt
/-!
# The features of LAL (C104)
-/
set_option linter.unusedSimpArgs false
set_option linter.unusedSectionVars false
namespace Alipy.Lal
open Alipy Select

variable {α K : Type}

/-! ## Mean and deviation -/

theorem isMean {l : List ℝ} (h : l ≠ []) : Spec.IsMean l (mean l) := by
  have : (l.length : ℝ) ≠ 0 := by exact_mod_cast (List.length_pos_iff.2 h).ne'
  unfold Spec.IsMean mean
  rw [div_mul_cancel₀ _ this]

theorem squares_nonneg (l : List ℝ) (m : ℝ) : 0 ≤ (l.map (fun x => (x - m) ^ 2)).sum :=
  List.sum_nonneg (fun x hx => by obtain ⟨y, _, rfl⟩ := List.mem_map.1 hx; exact sq_nonneg _)

theorem isDeviation {l : List ℝ} (h : l ≠ []) : Spec.IsDeviation l (std Real.sqrt l) := by
  have hl : (l.length : ℝ) ≠ 0 := by exact_mod_cast (List.length_pos_iff.2 h).ne'
  refine ⟨Real.sqrt_nonneg _, mean l, isMean h, ?_⟩
  unfold std
  generalize mean l = m
  unfold mean
  rw [Real.sq_sqrt (div_nonneg (squares_nonneg l _) (Nat.cast_nonneg _)), List.length_map, div_mul_cancel₀ _ hl]

theorem mean_range {l : List ℝ} {a b : ℝ} (hne : l ≠ []) (h : ∀ x ∈ l, a ≤ x ∧ x ≤ b) : a ≤ mean l ∧ mean l ≤ b := by
  have hl : (0 : ℝ) < l.length := by exact_mod_cast List.length_pos_iff.2 hne
  unfold mean
  rw [le_div_iff₀ hl, div_le_iff₀ hl]
  clear hl hne
  induction l with
  | nil => simp
  | cons x l ih =>
    have h1 := h x (by simp)
    have h2 := ih (fun y hy => h y (by simp [hy]))
    simp only [List.sum_cons, List.length_cons]
    push_cast
    constructor
    · linarith [h1.1, h2.1, mul_add a l.length 1]
    · linarith [h1.2, h2.2, mul_add b l.length 1]

theorem sum_squares (l : List ℝ) (m : ℝ) : (l.map (fun x => (x - m) ^ 2)).sum = (l.map (fun x => x ^ 2)).sum - 2 * m * l.sum + l.length * m ^ 2 := by
  induction l with
  | nil => simp
  | cons x l ih =>
    simp only [List.map_cons, List.sum_cons, List.length_cons, ih]
    push_cast
    ring

/-- Numbers between 0 and 1 have a standard deviation of at most one half. -/
theorem std_range {l : List ℝ} (hne : l ≠ []) (h : ∀ x ∈ l, 0 ≤ x ∧ x ≤ 1) : 0 ≤ std Real.sqrt l ∧ std Real.sqrt l ≤ 1 / 2 := by
  have hl : (0 : ℝ) < l.length := by exact_mod_cast List.length_pos_iff.2 hne
  refine ⟨Real.sqrt_nonneg _, ?_⟩
  unfold std
  rw [show (1 / 2 : ℝ) = √((1 / 2) ^ 2) from (Real.sqrt_sq (by norm_num)).symm]
  apply Real.sqrt_le_sqrt
  have hm : mean l * l.length = l.sum := isMean hne
  generalize mean l = m at hm
  unfold mean
  rw [List.length_map, div_le_iff₀ hl, sum_squares]
  have hs : (l.map (fun x => x ^ 2)).sum ≤ l.sum := by
    clear hm hl hne
    induction l with
    | nil => simp
    | cons x l ih =>
      have h1 := h x (by simp)
      have h2 := ih (fun y hy => h y (by simp [hy]))
      simp only [List.map_cons, List.sum_cons]
      nlinarith
  rw [← hm] at hs ⊢
  nlinarith [mul_nonneg hl.le (sq_nonneg (m - 1 / 2))]

/-! ## The features -/

theorem column_ne {f : Forest ℝ} (h : f.trees ≠ []) (i : Nat) : column f i ≠ [] := by
  unfold column
  exact fun e => h (List.map_eq_nil_iff.1 e)

/-- **C104** (partial: the greater label has to be positive and the other one not; the fifth feature is stated by `C104_importance_violation`): the row of an
example holds the mean and the standard deviation of the predictions of the trees, the share of the positive label among the known ones, the out-of-bag score,
the mean of the standard deviations, the mean depth and the number of labelled examples. -/
theorem C104_features_partial {f : Forest ℝ} (ht : f.trees ≠ []) (hd : f.depths ≠ []) {known : List Int} (hk : known ≠ []) {neg pos : Int}
    (hcl : ∀ y ∈ known, y = neg ∨ y = pos) (hneg : neg ≤ 0) (hpos : 0 < pos) (dim : Nat) {n i : Nat} (hi : i < n) :
    Spec.LalRow (f.trees.map (fun t => t.getD i 0)) known pos f.oob ((List.range n).map (fun j => f.trees.map (fun t => t.getD j 0))) f.depths
      (features Real.sqrt f known dim n i) := by
  have hl : (known.length : ℝ) ≠ 0 := by exact_mod_cast (List.length_pos_iff.2 hk).ne'
  constructor
  · rfl
  · exact isMean (column_ne ht i)
  · exact isDeviation (column_ne ht i)
  · show f3 known * (known.length : ℝ) = _
    unfold f3
    rw [div_mul_cancel₀ _ hl, List.count_eq_length_filter]
    congr 2
    apply List.filter_congr
    intro y hy
    rcases hcl y hy with rfl | rfl
    · have h1 : ¬ (0 < y) := by omega
      have h2 : y ≠ pos := by omega
      simp [h1, h2]
    · simp [hpos]
  · rfl
  · refine ⟨(List.range n).map (f2 Real.sqrt f), ?_, ?_⟩
    · rw [List.forall₂_map_left_iff, List.forall₂_map_right_iff]
      exact List.forall₂_same.2 (fun j _ => isDeviation (column_ne ht j))
    · exact isMean (by simp; omega)
  · exact isMean (fun e => hd (List.map_eq_nil_iff.1 e))
  · rfl

/-- **C104**: if the trees predict probabilities, so is the first feature, and the second and the sixth are at most one half. -/
theorem C104_ranges {f : Forest ℝ} (ht : f.trees ≠ []) {n : Nat} (hr : ∀ t ∈ f.trees, ∀ v ∈ t, 0 ≤ v ∧ v ≤ 1) (known : List Int) (dim : Nat) {i : Nat} (hi : i < n) :
    ∃ f1 f2 f3 f4 f5 f6 f7 f8, features Real.sqrt f known dim n i = [f1, f2, f3, f4, f5, f6, f7, f8] ∧
      (0 ≤ f1 ∧ f1 ≤ 1) ∧ (0 ≤ f2 ∧ f2 ≤ 1 / 2) ∧ (0 ≤ f6 ∧ f6 ≤ 1 / 2) := by
  have hc : ∀ j, ∀ x ∈ column f j, 0 ≤ x ∧ x ≤ 1 := by
    intro j x hx
    obtain ⟨t, ht, rfl⟩ := List.mem_map.1 hx
    rw [List.getD_eq_getElem?_getD]
    cases hg : t[j]? with
    | none => simp
    | some v => exact hr t ht v (List.mem_of_getElem? hg)
  refine ⟨_, _, _, _, _, _, _, _, rfl, mean_range (column_ne ht i) (hc i), std_range (column_ne ht i) (hc i), ?_⟩
  refine mean_range (by simp; omega) ?_
  intro x hx
  obtain ⟨j, _, rfl⟩ := List.mem_map.1 hx
  exact std_range (column_ne ht j) (hc j)

section
variable [Field K] [LinearOrder K]

theorem mean_perm {l l' : List K} (h : l.Perm l') : mean l = mean l' := by
  unfold mean; rw [h.sum_eq, h.length_eq]

theorem std_perm (sqrt : K → K) {l l' : List K} (h : l.Perm l') : std sqrt l = std sqrt l' := by
  unfold std; rw [mean_perm h, mean_perm (h.map _)]

/-- **C104**: the order of the trees of the forest and the order in which the labelled examples are listed make no difference. -/
theorem C104_trees {sqrt : K → K} {argsort : List K → List Nat} {s : Option (List K → K)} {f f' : Forest K} (h : f.trees.Perm f'.trees)
    (hd : f.depths.Perm f'.depths) (ho : f.oob = f'.oob) (hm : f.importances = f'.importances) {known known' : List Int} (hk : known.Perm known')
    (dim : Nat) (u : Coll α) (batch : Int) : select sqrt argsort s f known dim u batch = select sqrt argsort s f' known' dim u batch := by
  have hc : ∀ i, (column f i).Perm (column f' i) := fun i => h.map _
  have h2 : f2 sqrt f = f2 sqrt f' := funext (fun i => std_perm sqrt (hc i))
  have hf : features sqrt f known dim u.items.length = features sqrt f' known' dim u.items.length := by
    funext i
    unfold features f6 f5 f3
    rw [mean_perm (hc i), h2, ho, hm, mean_perm (hd.map _), hk.length_eq, (hk.filter _).length_eq]
  unfold select
  rw [hf]
  cases s with
  | none => rfl
  | some s =>
    have : known = [] ↔ known' = [] := by
      constructor
      · rintro rfl; exact List.nil_perm.1 hk
      · rintro rfl; exact List.perm_nil.1 hk
    simp only [this]

/-- **C104**: examples on which the trees say the same are equally promising, however different they are. -/
theorem C104_alike {sqrt : K → K} {f : Forest K} {i j : Nat} (h : ∀ t ∈ f.trees, t.getD i 0 = t.getD j 0) (known : List Int) (dim n : Nat) :
    features sqrt f known dim n i = features sqrt f known dim n j := by
  have hc : column f i = column f j := List.map_congr_left h
  unfold features f2
  rw [hc]

variable [IsStrictOrderedRing K]

/-- **C104**: the selection is a batch of those unlabelled examples for whose features the trained selector predicts most; without a trained selector there is a
`ValueError`. -/
theorem C104_selection {sqrt : K → K} {argsort : List K → List Nat} (ha : ∀ l, Spec.IsArgsort l (argsort l)) {s : List K → K} {f : Forest K}
    {known : List Int} (hk : known ≠ []) (dim : Nat) {u : Coll α} (hu : u.items.Nodup) {batch : Int} (hb : 0 < batch) :
    ∃ r, select sqrt argsort (some s) f known dim u batch = .ok r ∧ Spec.BatchOf u.items batch r ∧
      Spec.NoneBetter u.items r (fun j i =>
        s (features sqrt f known dim u.items.length i) < s (features sqrt f known dim u.items.length j)) := by
  unfold select
  simp only [if_neg hk]
  obtain ⟨r, h1, h2, h3⟩ := C42_lal ha hu (pred := (List.range u.items.length).map (fun i => s (features sqrt f known dim u.items.length i)))
    (by simp) hb
  refine ⟨r, h1, h2, fun i j x y hi hj hx hy hlt => h3 i j x y hi hj hx hy ⟨_, _, ?_, ?_, hlt⟩⟩
  · rw [List.getElem?_map, List.getElem?_range (List.getElem?_eq_some_iff.1 hj).1]; rfl
  · rw [List.getElem?_map, List.getElem?_range (List.getElem?_eq_some_iff.1 hi).1]; rfl

theorem C104_untrained (sqrt : K → K) (argsort : List K → List Nat) (f : Forest K) (known : List Int) (dim : Nat) (u : Coll α) (batch : Int) :
    select sqrt argsort none f known dim u batch = .error .valueError := rfl

/-- **C104**, violation: with two positive labels, such as 1 and 2, the share of the positive ones is 1 whatever the labels are. -/
theorem C104_share_violation {known : List Int} (hk : known ≠ []) (hpos : ∀ y ∈ known, 0 < y) (sqrt : K → K) (f : Forest K) (dim n i : Nat) :
    (features sqrt f known dim n i).getD 2 0 = 1 := by
  have hl : (known.length : K) ≠ 0 := by exact_mod_cast (List.length_pos_iff.2 hk).ne'
  show f3 known = 1
  unfold f3
  rw [List.filter_eq_self.2 (by simpa using hpos), div_self hl]

end

theorem mean_scale (c : ℝ) (d : List ℝ) : mean (d.map (fun x => x / c)) = mean d / c := by
  unfold mean
  rw [List.length_map]
  have : (d.map (fun x => x / c)).sum = d.sum / c := by
    induction d with
    | nil => simp
    | cons x l ih => simp only [List.map_cons, List.sum_cons, ih]; ring
  rw [this, div_right_comm]

/-- **C104**, violation: the fifth feature is called the coefficient of variation of the importances of the features, that is their standard deviation divided by
their mean. As the mean of importances that sum up to 1 is `1 / dim`, this is `dim` times the standard deviation; the code divides by `dim` instead. -/
theorem C104_importance_violation {f : Forest ℝ} {dim : Nat} (hdim : 0 < dim) (hl : f.importances.length = dim) (hs : f.importances.sum = 1)
    {s m : ℝ} (hsd : Spec.IsDeviation f.importances s) (hm : Spec.IsMean f.importances m) (known : List Int) (n i : Nat) :
    (features Real.sqrt f known dim n i).getD 4 0 = s / dim ∧ s / m = dim ^ 2 * (features Real.sqrt f known dim n i).getD 4 0 := by
  have hd : (0 : ℝ) < dim := by exact_mod_cast hdim
  have hm' : m = 1 / dim := by
    unfold Spec.IsMean at hm
    rw [hl, hs] at hm
    field_simp
    linarith
  have hmean : mean f.importances = m := by
    unfold mean
    unfold Spec.IsMean at hm
    rw [← hm, hl, mul_div_assoc, div_self hd.ne', mul_one]
  have h4 : (features Real.sqrt f known dim n i).getD 4 0 = s / dim := by
    show f5 Real.sqrt f dim = s / dim
    obtain ⟨h0, m', hm1, hm2⟩ := hsd
    have : m' = m := by
      unfold Spec.IsMean at hm hm1
      rw [hl] at hm hm1
      exact mul_right_cancel₀ hd.ne' (hm1.trans hm.symm)
    subst this
    unfold f5 std
    rw [mean_scale, hmean, List.map_map]
    have e : ((fun x => (x - m' / (dim : ℝ)) ^ 2) ∘ fun x => x / (dim : ℝ)) = (fun x => x / ((dim : ℝ) ^ 2)) ∘ (fun x => (x - m') ^ 2) := by
      funext x
      simp only [Function.comp_apply]
      field_simp
    rw [e, ← List.map_map, mean_scale]
    have e2 : mean (f.importances.map (fun x => (x - m') ^ 2)) = s ^ 2 := by
      unfold mean
      rw [List.length_map, hl, ← hm2, hl, mul_div_assoc, div_self hd.ne', mul_one]
    rw [e2, ← div_pow, Real.sqrt_sq (div_nonneg h0 hd.le)]
  refine ⟨h4, ?_⟩
  rw [h4, hm']
  field_simp

/-- **C104**: only binary problems are accepted. -/
theorem C104_binary {y : List Int} {isDir : Bool} {mode : String} (h : init y isDir mode = .ok ()) :
    ∃ a b, a ≠ b ∧ ∀ z, z ∈ y ↔ z = a ∨ z = b := by
  unfold init at h
  split_ifs at h with h1
  obtain ⟨a, b, e⟩ := List.length_eq_two.1 (not_not.1 h1)
  have hn := eraseDups_nodup y
  rw [e] at hn
  refine ⟨a, b, by simpa using hn, fun z => ?_⟩
  rw [← List.mem_eraseDups, e]
  simp

/-! ## A concrete case -/

/-- Two trees, three examples; they disagree most on the second, which a selector that goes by the second feature takes. The square root does not matter for the
order, so the identity is used. -/
example : select (fun x : ℚ => x) argsortBy (some (fun row => row.getD 1 0)) ⟨[[1, 0, 1/2], [1, 1, 1/4]], [2, 4], 1/2, [1/2, 1/2]⟩ [0, 1, 1] 2 (.list [7, 8, 9]) 1 =
    .ok [8] := by decide +kernel

example : features (fun x : ℚ => x) ⟨[[1, 0, 1/2], [1, 1, 1/4]], [2, 4], 1/2, [1/2, 1/2]⟩ [0, 1, 1] 2 3 1 = [1/2, 1/4, 2/3, 1/2, 0, 17/192, 3, 3] := by
  decide +kernel

end Alipy.Lal

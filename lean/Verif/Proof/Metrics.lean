import Verif.Proof.Lists
import Verif.Proof.Roc
import Verif.Proof.Split
import Mathlib.Algebra.BigOperators.Intervals
import Mathlib.Algebra.Order.BigOperators.Group.Finset
import Mathlib.Data.List.GetD

namespace Alipy

theorem sum_eq_range (l : List ℚ) : l.sum = ∑ i ∈ Finset.range l.length, l.getD i 0 := by
  induction l with
  | nil => simp
  | cons a l ih =>
    rw [List.sum_cons, List.length_cons, Finset.sum_range_succ', ih]
    simp; ring

/-- The weighted average of truth values is a fraction of positions. -/
theorem npAverage_fraction {α β : Type} (a : List α) (b : List β) (R : α → β → Bool) (P : Nat → Prop) [DecidablePred P]
    (hab : a.length = b.length)
    (hP : ∀ i (h1 : i < a.length) (h2 : i < b.length), P i ↔ R a[i] b[i] = true) (w : Option (List ℚ)) (hw : weightsFit a.length w = true)
    (hs : ∑ i ∈ Finset.range a.length, Spec.weight w i ≠ 0) :
    npAverage (List.zipWith (fun x y => ofBool (R x y)) a b) w = .ok (some (Spec.fraction a.length (Spec.weight w) P)) := by
  have hlen : (List.zipWith (fun x y => ofBool (R x y)) a b).length = a.length := by simp [hab]
  have hne : a ≠ [] := by rintro rfl; simp at hs
  cases w with
  | none =>
    simp only [npAverage]
    rw [if_neg (by intro hc; apply hne; rw [List.isEmpty_iff] at hc; rw [← List.length_eq_zero_iff, ← hlen, hc]; rfl)]
    congr 2
    unfold Spec.fraction
    rw [sum_eq_range, hlen]
    congr 1
    · apply Finset.sum_congr rfl
      intro i hi
      have h1 : i < a.length := Finset.mem_range.1 hi
      have h2 : i < b.length := by omega
      rw [List.getD_eq_getElem _ _ (by simp; omega), List.getElem_zipWith]
      simp only [Spec.weight, ofBool]
      by_cases h : P i
      · simp [h, (hP i h1 h2).1 h]
      · have : R a[i] b[i] = false := by
          cases hr : R a[i] b[i]
          · rfl
          · exact absurd ((hP i h1 h2).2 hr) h
        simp [h, this]
    · simp [Spec.weight]
  | some l =>
    simp only [weightsFit, decide_eq_true_eq] at hw
    have hl : l.sum = ∑ i ∈ Finset.range a.length, Spec.weight (some l) i := by
      rw [sum_eq_range, hw]; rfl
    simp only [npAverage]
    rw [if_neg (by rw [hl]; exact hs)]
    congr 2
    unfold Spec.fraction
    rw [hl, sum_eq_range]
    congr 1
    have : (List.zipWith (fun x v => x * v) (List.zipWith (fun x y => ofBool (R x y)) a b) l).length = a.length := by
      simp [hab, hw]
    rw [this]
    apply Finset.sum_congr rfl
    intro i hi
    have h1 : i < a.length := Finset.mem_range.1 hi
    have h2 : i < b.length := by omega
    have h3 : i < l.length := by omega
    rw [List.getD_eq_getElem _ _ (by simp; omega), List.getElem_zipWith, List.getElem_zipWith]
    simp only [Spec.weight, ofBool]
    rw [List.getD_eq_getElem _ _ h3]
    by_cases h : P i
    · simp [h, (hP i h1 h2).1 h]
    · have : R a[i] b[i] = false := by
        cases hr : R a[i] b[i]
        · rfl
        · exact absurd ((hP i h1 h2).2 hr) h
      simp [h, this]

theorem accuracyFlat_eq {a b : List Int} (h : a.length = b.length) (w : Option (List ℚ)) (hw : weightsFit a.length w = true)
    (hs : ∑ i ∈ Finset.range a.length, Spec.weight w i ≠ 0) :
    accuracyFlat a b w = .ok (some (Spec.fraction a.length (Spec.weight w) (fun i => a[i]? = b[i]?))) := by
  unfold accuracyFlat
  rw [if_neg (by rw [hw]; simpa using h)]
  exact npAverage_fraction a b (fun x y => decide (x = y)) (fun i => a[i]? = b[i]?) h (by intro i h1 h2; simp [h1, h2]) w hw hs

theorem fraction_bounds {n : Nat} {w : Nat → ℚ} (P : Nat → Prop) [DecidablePred P] (hw : ∀ i < n, 0 ≤ w i)
    (hs : ∑ i ∈ Finset.range n, w i ≠ 0) : 0 ≤ Spec.fraction n w P ∧ Spec.fraction n w P ≤ 1 ∧
      (Spec.fraction n w P = 1 ↔ ∀ i < n, 0 < w i → P i) := by
  have hpos : 0 < ∑ i ∈ Finset.range n, w i :=
    lt_of_le_of_ne (Finset.sum_nonneg (fun i hi => hw i (Finset.mem_range.1 hi))) (Ne.symm hs)
  have hle : ∀ i ∈ Finset.range n, (if P i then w i else 0) ≤ w i := by
    intro i hi
    split
    · exact le_refl _
    · exact hw i (Finset.mem_range.1 hi)
  refine ⟨?_, ?_, ?_⟩
  · apply div_nonneg _ hpos.le
    apply Finset.sum_nonneg
    intro i hi
    split
    · exact hw i (Finset.mem_range.1 hi)
    · exact le_refl _
  · unfold Spec.fraction
    rw [div_le_one hpos]
    exact Finset.sum_le_sum hle
  · unfold Spec.fraction
    rw [div_eq_one_iff_eq hs, Finset.sum_eq_sum_iff_of_le hle]
    constructor
    · intro h i hi hwi
      have := h i (Finset.mem_range.2 hi)
      by_contra hc
      rw [if_neg hc] at this
      linarith
    · intro h i hi
      split
      · rfl
      · rename_i hc
        have h0 := hw i (Finset.mem_range.1 hi)
        by_contra hne
        exact hc (h i (Finset.mem_range.1 hi) (lt_of_le_of_ne h0 hne))

theorem typeOfTarget_vec (a : List Int) : ∃ t, typeOfTarget (.vec a) = .ok t ∧ t ≠ .multilabel := by
  unfold typeOfTarget
  split
  · exact ⟨_, rfl, by decide⟩
  · exact ⟨_, rfl, by decide⟩

theorem checkTargets_vec {a b : List Int} (h : a.length = b.length) : ∃ t, checkTargets (.vec a) (.vec b) = .ok t ∧ t ≠ .multilabel := by
  obtain ⟨s, hs, hs'⟩ := typeOfTarget_vec a
  obtain ⟨t, ht, ht'⟩ := typeOfTarget_vec b
  unfold checkTargets
  rw [if_neg (by simpa [Tgt.len] using h), hs, ht]
  cases s <;> cases t <;> simp_all [joinType]

theorem weightsFit_iff {n : Nat} {w : Option (List ℚ)} : weightsFit n w = true ↔ Spec.FitWeights n w := by
  cases w with
  | none => simp [weightsFit, Spec.FitWeights]
  | some l => simp [weightsFit, Spec.FitWeights]

theorem binaryClasses_iff {y : List Int} : binaryClasses y = true ↔ Spec.BinaryLabels y := by
  simp [binaryClasses, Spec.BinaryLabels]

theorem numUnique_le_two {l : List Int} : numUnique l ≤ 2 ↔ Spec.AtMostTwoValues l := by
  have hn : l.eraseDups.Nodup := nodup_eraseDups l
  have hm : ∀ x, x ∈ l.eraseDups ↔ x ∈ l := fun x => List.mem_eraseDups
  unfold numUnique Spec.AtMostTwoValues
  simp only [← hm]
  generalize l.eraseDups = d at hn
  constructor
  · intro h x hx y hy z hz
    match d, h with
    | [], _ => simp at hx
    | [a], _ => simp at hx hy; left; rw [hx, hy]
    | [a, b], _ =>
      simp at hx hy hz
      rcases hx with rfl | rfl <;> rcases hy with rfl | rfl <;> rcases hz with rfl | rfl <;> simp
    | _ :: _ :: _ :: _, h => simp at h
  · intro h
    match d, hn, h with
    | [], _, _ => simp
    | [a], _, _ => simp
    | [a, b], _, _ => simp
    | a :: b :: c :: r, hn, h =>
      have := h a (by simp) b (by simp) c (by simp)
      simp at hn
      rcases this with rfl | rfl | rfl
      · exact absurd rfl hn.1.1
      · exact absurd rfl hn.2.1.1
      · exact absurd rfl hn.1.2.1

theorem two_lt_numUnique {l : List Int} : 2 < numUnique l ↔ ¬ Spec.AtMostTwoValues l := by
  rw [← numUnique_le_two]; omega

end Alipy

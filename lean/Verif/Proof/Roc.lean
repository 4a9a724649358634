import Verif.Model.Metrics
import Verif.Spec.Metrics
import Verif.Proof.Sort
import Mathlib.Tactic.Ring
import Mathlib.Tactic.Linarith
import Mathlib.Tactic.FieldSimp
import Mathlib.Data.List.Perm.Basic

namespace Alipy

theorem sortBy_of_sorted {α : Type} (le : α → α → Bool) : ∀ {l : List α}, l.Pairwise (fun a b => le a b = true) → sortBy le l = l
  | [], _ => rfl
  | [a], _ => rfl
  | a :: b :: l, h => by
    rw [List.pairwise_cons] at h
    rw [sortBy, sortBy_of_sorted le h.2, insertBy, if_pos (h.1 b (by simp))]

theorem sum_map_add {α : Type} (l : List α) (f g : α → ℚ) : (l.map (fun x => f x + g x)).sum = (l.map f).sum + (l.map g).sum := by
  induction l with
  | nil => simp
  | cons a l ih => simp only [List.map_cons, List.sum_cons, ih]; ring

theorem sum_map_mul_left {α : Type} (l : List α) (f : α → ℚ) (m : ℚ) : (l.map (fun x => m * f x)).sum = m * (l.map f).sum := by
  induction l with
  | nil => simp
  | cons a l ih => simp only [List.map_cons, List.sum_cons, ih]; ring

theorem countP_eq_sum {α : Type} (l : List α) (P : α → Bool) : (l.countP P : ℚ) = (l.map (fun x => if P x then (1 : ℚ) else 0)).sum := by
  induction l with
  | nil => simp
  | cons a l ih =>
    rw [List.countP_cons]
    push_cast
    rw [ih, List.map_cons, List.sum_cons]
    cases P a <;> simp <;> ring

theorem map_congr_sum {α : Type} {l : List α} {f g : α → ℚ} (h : ∀ x ∈ l, f x = g x) : (l.map f).sum = (l.map g).sum := by
  rw [List.map_congr_left h]

/-- Number of scores at least `c`. -/
def geCount (l : List ℚ) (c : ℚ) : ℚ := (l.map (fun p => if c ≤ p then (1 : ℚ) else 0)).sum

/-- Twice the credits of the pairs with both scores at least `c`. -/
def creditSum (pos neg : List ℚ) (c : ℚ) : ℚ :=
  (pos.map (fun p => (neg.map (fun q => if c ≤ p ∧ c ≤ q then 2 * Spec.credit p q else 0)).sum)).sum

theorem credit_step {pos neg : List ℚ} {c c' : ℚ} (hc : c' ≤ c) (hp : ∀ p ∈ pos, c' ≤ p → c ≤ p ∨ p = c')
    (hn : ∀ p ∈ neg, c' ≤ p → c ≤ p ∨ p = c') :
    creditSum pos neg c' = creditSum pos neg c + (geCount neg c' - geCount neg c) * (geCount pos c + geCount pos c') := by
  rcases eq_or_lt_of_le hc with rfl | hlt
  · simp
  · have hT : ∀ {l : List ℚ}, (∀ p ∈ l, c' ≤ p → c ≤ p ∨ p = c') →
        geCount l c' = geCount l c + (l.map (fun p => if p = c' then (1:ℚ) else 0)).sum := by
      intro l hl
      unfold geCount
      rw [← sum_map_add]
      apply map_congr_sum
      intro p hpm
      by_cases h1 : c ≤ p
      · have h2 : c' ≤ p := le_trans hc h1
        have h3 : p ≠ c' := by rintro rfl; linarith
        simp [h1, h2, h3]
      · by_cases h2 : c' ≤ p
        · rcases hl p hpm h2 with h | h
          · exact absurd h h1
          · subst h; simp [hlt]
        · have h3 : p ≠ c' := by rintro rfl; exact h2 (le_refl _)
          simp [h1, h2, h3]
    rw [hT hp, hT hn]
    set TB := (pos.map (fun p => if p = c' then (1:ℚ) else 0)).sum with hTB
    set FB := (neg.map (fun p => if p = c' then (1:ℚ) else 0)).sum with hFB
    have key : creditSum pos neg c' = (pos.map (fun p => (neg.map (fun q => if c ≤ p ∧ c ≤ q then 2 * Spec.credit p q else 0)).sum +
        FB * (2 * (if c ≤ p then (1:ℚ) else 0) + (if p = c' then (1:ℚ) else 0)))).sum := by
      unfold creditSum
      apply map_congr_sum
      intro p hpm
      rw [hFB, mul_comm, ← sum_map_mul_left, ← sum_map_add]
      apply map_congr_sum
      intro q hqm
      have pc : c ≤ p → c' < p := fun h => lt_of_lt_of_le hlt h
      have qc : c ≤ q → c' < q := fun h => lt_of_lt_of_le hlt h
      by_cases hp1 : c' ≤ p
      · by_cases hq1 : c' ≤ q
        · rcases hp p hpm hp1 with hp2 | hp2
          · have hp3 : p ≠ c' := (pc hp2).ne'
            rcases hn q hqm hq1 with hq2 | hq2
            · have hq3 : q ≠ c' := (qc hq2).ne'
              simp [hp1, hq1, hp2, hq2, hq3]
            · subst hq2
              simp [hp1, hp2, hp3, hlt, Spec.credit, pc hp2]
          · subst hp2
            rcases hn q hqm hq1 with hq2 | hq2
            · have hq3 : q ≠ p := (qc hq2).ne'
              have : ¬ q < p := not_lt.2 hq1
              simp [hq1, hq3, Spec.credit, this, hlt]
            · subst hq2
              simp [not_le.2 hlt, Spec.credit]
        · have hq2 : ¬ c ≤ q := fun h => hq1 (le_trans hc h)
          have hq3 : q ≠ c' := by rintro rfl; exact hq1 (le_refl _)
          simp [hq1, hq2, hq3]
      · have hp2 : ¬ c ≤ p := fun h => hp1 (le_trans hc h)
        have hp3 : p ≠ c' := by rintro rfl; exact hp1 (le_refl _)
        simp [hp1, hp2, hp3]
    rw [key, sum_map_add, sum_map_mul_left, sum_map_add, sum_map_mul_left]
    unfold creditSum geCount
    ring

/-- The curve point at threshold `c`. -/
def pt (pos neg : List ℚ) (c : ℚ) : ℚ × ℚ := (geCount neg c, geCount pos c)

/-- The area under the curve from threshold `c` down along a list of thresholds containing all smaller scores. -/
theorem trapz_credit (pos neg : List ℚ) : ∀ (cs : List ℚ) (c : ℚ), (c :: cs).Pairwise (fun a b => b ≤ a) →
    (∀ p ∈ pos, c ≤ p ∨ p ∈ cs) → (∀ p ∈ neg, c ≤ p ∨ p ∈ cs) →
    2 * trapz ((c :: cs).map (pt pos neg)) = creditSum pos neg (cs.getLastD c) - creditSum pos neg c
  | [], c, _, _, _ => by simp [trapz]
  | c' :: cs, c, hs, hp, hn => by
    rw [List.pairwise_cons] at hs
    have hc : c' ≤ c := hs.1 c' (by simp)
    have hs2 := hs.2
    rw [List.pairwise_cons] at hs2
    have hstep : ∀ {l : List ℚ}, (∀ p ∈ l, c ≤ p ∨ p ∈ c' :: cs) → ∀ p ∈ l, c' ≤ p → c ≤ p ∨ p = c' := by
      intro l hl p hpm hcp
      rcases hl p hpm with h | h
      · exact Or.inl h
      · rcases List.mem_cons.1 h with h | h
        · exact Or.inr h
        · exact Or.inr (le_antisymm (hs2.1 p h) hcp)
    have hnext : ∀ {l : List ℚ}, (∀ p ∈ l, c ≤ p ∨ p ∈ c' :: cs) → ∀ p ∈ l, c' ≤ p ∨ p ∈ cs := by
      intro l hl p hpm
      rcases hl p hpm with h | h
      · exact Or.inl (le_trans hc h)
      · rcases List.mem_cons.1 h with h | h
        · exact Or.inl h.ge
        · exact Or.inr h
    have ih := trapz_credit pos neg cs c' hs.2 (hnext hp) (hnext hn)
    have st := credit_step hc (hstep hp) (hstep hn)
    simp only [List.map_cons] at ih ⊢
    rw [trapz, mul_add, ih, st]
    simp only [List.getLastD_cons, pt]
    ring

theorem trapz_scale (a b : ℚ) : ∀ (l : List (ℚ × ℚ)), trapz (l.map (fun q => (q.1 / a, q.2 / b))) = trapz l / (a * b)
  | [] => by simp [trapz]
  | [x] => by simp [trapz]
  | x :: y :: l => by
    have ih := trapz_scale a b (y :: l)
    simp only [List.map_cons] at ih ⊢
    rw [trapz, trapz, ih, add_div]
    congr 1
    simp only [div_eq_mul_inv, mul_inv]
    ring

theorem geCount_mono {l : List ℚ} {c c' : ℚ} (h : c' ≤ c) : geCount l c ≤ geCount l c' := by
  unfold geCount
  induction l with
  | nil => simp
  | cons a l ih =>
    simp only [List.map_cons, List.sum_cons]
    have : (if c ≤ a then (1:ℚ) else 0) ≤ if c' ≤ a then (1:ℚ) else 0 := by
      by_cases h1 : c ≤ a
      · simp [h1, le_trans h h1]
      · simp only [if_neg h1]; split <;> norm_num
    linarith

theorem geCount_all {l : List ℚ} {c : ℚ} (h : ∀ p ∈ l, c ≤ p) : geCount l c = l.length := by
  unfold geCount
  induction l with
  | nil => simp
  | cons a l ih =>
    simp only [List.map_cons, List.sum_cons, List.length_cons]
    rw [ih (fun p hp => h p (List.mem_cons_of_mem _ hp)), if_pos (h a (by simp))]
    push_cast; ring

theorem geCount_none {l : List ℚ} {c : ℚ} (h : ∀ p ∈ l, p < c) : geCount l c = 0 := by
  unfold geCount
  induction l with
  | nil => simp
  | cons a l ih =>
    simp only [List.map_cons, List.sum_cons]
    rw [ih (fun p hp => h p (List.mem_cons_of_mem _ hp)), if_neg (not_le.2 (h a (by simp)))]
    norm_num

theorem creditSum_all {pos neg : List ℚ} {c : ℚ} (hp : ∀ p ∈ pos, c ≤ p) (hn : ∀ p ∈ neg, c ≤ p) :
    creditSum pos neg c = 2 * (pos.map (fun p => (neg.map (fun q => Spec.credit p q)).sum)).sum := by
  unfold creditSum
  rw [← sum_map_mul_left]
  apply map_congr_sum
  intro p hpm
  rw [← sum_map_mul_left]
  apply map_congr_sum
  intro q hqm
  simp [hp p hpm, hn q hqm]

theorem creditSum_none {pos neg : List ℚ} {c : ℚ} (hp : ∀ p ∈ pos, p < c) : creditSum pos neg c = 0 := by
  unfold creditSum
  have : (pos.map (fun p => (neg.map (fun q => if c ≤ p ∧ c ≤ q then 2 * Spec.credit p q else 0)).sum)) = pos.map (fun _ => (0:ℚ)) := by
    apply List.map_congr_left
    intro p hpm
    have : ¬ c ≤ p := not_le.2 (hp p hpm)
    simp [this]
  rw [this]; simp

/-- Perm-invariance of the pair statistic. -/
theorem pairStatistic_perm {p p' n n' : List ℚ} (hp : p.Perm p') (hn : n.Perm n') : Spec.pairStatistic p n = Spec.pairStatistic p' n' := by
  unfold Spec.pairStatistic
  have e : ∀ x, (n.map (fun q => Spec.credit x q)).sum = (n'.map (fun q => Spec.credit x q)).sum := fun x => (hn.map _).sum_eq
  simp only [e, hp.length_eq, hn.length_eq, (hp.map _).sum_eq]

end Alipy

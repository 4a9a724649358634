import Verif.Spec.Even
import Verif.Props.Select
import Mathlib.Analysis.Convex.SpecificFunctions.Basic
import Mathlib.Analysis.Convex.Jensen
import Mathlib.Analysis.SpecialFunctions.Log.NegMulLog
import Mathlib.Algebra.BigOperators.Fin
import Mathlib.Tactic.LinearCombination
/-!
# Evener predictions are more uncertain (C133)
-/
namespace Alipy.Select
open Alipy

variable {α : Type}

/-- What a class contributes to the score is strictly convex. -/
theorem term_convex : StrictConvexOn ℝ (Set.Ioi 0) (fun v : ℝ => v * Real.log (v + 1 / 1000000000)) := by
  have h1 : StrictConvexOn ℝ (Set.Ioi 0) (fun u : ℝ => u * Real.log u) := Real.strictConvexOn_mul_log.subset Set.Ioi_subset_Ici_self (convex_Ioi 0)
  have h2 : StrictConcaveOn ℝ (Set.Ioi 0) Real.log := strictConcaveOn_log_Ioi
  refine ⟨convex_Ioi 0, ?_⟩
  intro x hx y hy hxy a b ha hb hab
  have hx0 : 0 < x := hx
  have hy0 : 0 < y := hy
  have hx' : x + 1 / 1000000000 ∈ Set.Ioi (0 : ℝ) := by show 0 < x + 1 / 1000000000; linarith
  have hy' : y + 1 / 1000000000 ∈ Set.Ioi (0 : ℝ) := by show 0 < y + 1 / 1000000000; linarith
  have hne : x + 1 / 1000000000 ≠ y + 1 / 1000000000 := fun h => hxy (by linarith)
  have g1 := h1.2 hx' hy' hne ha hb hab
  have g2 := h2.2 hx' hy' hne ha hb hab
  simp only [smul_eq_mul] at g1 g2 ⊢
  have e : a * (x + 1 / 1000000000) + b * (y + 1 / 1000000000) = a * x + b * y + 1 / 1000000000 := by
    have : b = 1 - a := by linarith
    subst this
    ring
  rw [e] at g1 g2
  nlinarith

theorem two_terms {f : ℝ → ℝ} (hf : StrictConvexOn ℝ (Set.Ioi 0) f) {a b x : ℝ} (hb : 0 < b) (hx : 0 < x) (hab : x < a - b) : f (a - x) + f (b + x) < f a + f b := by
  have hd : 0 < a - b := by linarith
  have ha : 0 < a := by linarith
  have h1 : 0 < x / (a - b) := div_pos hx hd
  have h2 : 0 < 1 - x / (a - b) := by
    have : x / (a - b) < 1 := (div_lt_one hd).2 hab
    linarith
  have hm : x / (a - b) * (a - b) = x := by field_simp
  have g1 := hf.2 (show a ∈ Set.Ioi 0 from ha) (show b ∈ Set.Ioi 0 from hb) (by linarith) h2 h1 (by ring)
  have g2 := hf.2 (show a ∈ Set.Ioi 0 from ha) (show b ∈ Set.Ioi 0 from hb) (by linarith) h1 h2 (by ring)
  simp only [smul_eq_mul] at g1 g2
  have e1 : (1 - x / (a - b)) * a + x / (a - b) * b = a - x := by linear_combination -hm
  have e2 : x / (a - b) * a + (1 - x / (a - b)) * b = b + x := by linear_combination hm
  rw [e1] at g1
  rw [e2] at g2
  linarith

theorem clip_pos {row : List ℝ} (h : ∀ v ∈ row, 0 < v) : clip row = row := by
  unfold clip
  conv_rhs => rw [← List.map_id row]
  apply List.map_congr_left
  intro v hv
  simp [not_le.2 (h v hv)]

theorem transfer_entropy {r r' : List ℝ} (h : Spec.Transfer r r') (hp : ∀ v ∈ r, 0 < v) :
    (∀ v ∈ r', 0 < v) ∧ entropyScore Real.log r < entropyScore Real.log r' := by
  obtain ⟨a, b, x, l, h1, h2, hx, hxa⟩ := h
  have hb : 0 < b := hp b (h1.mem_iff.2 (by simp))
  have ha : 0 < a := hp a (h1.mem_iff.2 (by simp))
  refine ⟨fun v hv => ?_, ?_⟩
  · have := h2.mem_iff.1 hv
    simp only [List.mem_cons] at this
    rcases this with rfl | rfl | h
    · linarith
    · linarith
    · exact hp v (h1.mem_iff.2 (by simp [h]))
  · unfold entropyScore
    rw [(h1.map _).sum_eq, (h2.map _).sum_eq]
    have := two_terms term_convex hb hx hxa
    simp only [List.map_cons, List.sum_cons]
    linarith

/-- **C133**: an evener prediction has the higher entropy score, for positive probabilities. -/
theorem C133_entropy_score {r r' : List ℝ} (h : Spec.Evener r r') (hp : ∀ v ∈ r, 0 < v) : entropyScore Real.log (clip r) < entropyScore Real.log (clip r') := by
  have key : (∀ v ∈ r', 0 < v) ∧ entropyScore Real.log r < entropyScore Real.log r' := by
    induction h with
    | single h => exact transfer_entropy h hp
    | tail _ h ih =>
      obtain ⟨g1, g2⟩ := transfer_entropy h ih.1
      exact ⟨g1, ih.2.trans g2⟩
  rw [clip_pos hp, clip_pos key.1]
  exact key.2

/-- **C133**: with the measure entropy no example remains unselected whose prediction is evener than that of a selected one. -/
theorem C133_entropy {argsort : List ℝ → List Nat} (ha : ∀ l, Spec.IsArgsort l (argsort l)) {u : Coll α} (hu : u.items.Nodup)
    {c : Nat} {rows : List (List ℝ)} (hf : Spec.Fits u.items.length .entropy (.mat c rows)) (hpos : ∀ r ∈ rows, ∀ v ∈ r, 0 < v)
    {batch : Int} {r : List α} (hr : uncertainty Real.log argsort .entropy u (.mat c rows) batch = .ok r) :
    Spec.NoneBetter u.items r (fun j i => ∃ rj ri, rows[j]? = some rj ∧ rows[i]? = some ri ∧ Spec.Evener ri rj) := by
  obtain ⟨h1, h2, h3⟩ := hf
  rintro i j x y hi hj hx hy ⟨rj, ri, ej, ei, hev⟩
  simp only [uncertainty, if_neg h1] at hr
  have key := byLargest_best ha hu (by simpa using h2) hr hi hj hx hy (a := entropyScore Real.log (clip ri)) (b := entropyScore Real.log (clip rj))
    (by simp [ei]) (by simp [ej])
  exact absurd key (not_le.2 (C133_entropy_score hev (hpos ri (List.mem_of_getElem? ei))))

theorem transfer_top {r r' : List ℝ} (h : Spec.Transfer r r') {t t' : ℝ} (ht : Spec.IsTop r t) (ht' : Spec.IsTop r' t') : t' ≤ t := by
  obtain ⟨a, b, x, l, h1, h2, hx, hxa⟩ := h
  have ha : a ≤ t := ht.2 a (h1.mem_iff.2 (by simp))
  have := h2.mem_iff.1 ht'.1
  simp only [List.mem_cons] at this
  rcases this with rfl | rfl | h
  · linarith
  · linarith
  · exact ht.2 _ (h1.mem_iff.2 (by simp [h]))

theorem top_exists : ∀ {r : List ℝ}, r ≠ [] → ∃ t, Spec.IsTop r t
  | [], h => absurd rfl h
  | [a], _ => ⟨a, by simp [Spec.IsTop]⟩
  | a :: b :: l, _ => by
    obtain ⟨t, h1, h2⟩ := top_exists (r := b :: l) (by simp)
    rcases le_total a t with h | h
    · refine ⟨t, List.mem_cons_of_mem _ h1, fun x hx => ?_⟩
      rcases List.mem_cons.1 hx with rfl | hx
      · exact h
      · exact h2 x hx
    · refine ⟨a, by simp, fun x hx => ?_⟩
      rcases List.mem_cons.1 hx with rfl | hx
      · exact le_refl _
      · exact (h2 x hx).trans h

theorem transfer_length {r r' : List ℝ} (h : Spec.Transfer r r') : r'.length = r.length := by
  obtain ⟨a, b, x, l, h1, h2, _, _⟩ := h
  rw [h1.length_eq, h2.length_eq]
  simp

theorem least_top {r : List ℝ} {t : ℝ} (h : Spec.IsTop r t) : leastScore r.length r = 1 - t := by
  obtain ⟨rest, p1, p2⟩ := top_perm h
  unfold leastScore
  rw [sorted_top p1 p2]

/-- **C133**: an evener prediction is not more confident: its score of least confidence is not lower. -/
theorem C133_least_confident {r r' : List ℝ} (h : Spec.Evener r r') (hr : r ≠ []) : leastScore r.length r ≤ leastScore r'.length r' := by
  have key : r' ≠ [] ∧ leastScore r.length r ≤ leastScore r'.length r' := by
    have step : ∀ {r r' : List ℝ}, Spec.Transfer r r' → r ≠ [] → r' ≠ [] ∧ leastScore r.length r ≤ leastScore r'.length r' := by
      intro r r' h hr
      have hr' : r' ≠ [] := by
        have := transfer_length h
        intro e
        rw [e] at this
        exact hr (List.length_eq_zero_iff.1 this.symm)
      obtain ⟨t, ht⟩ := top_exists hr
      obtain ⟨t', ht'⟩ := top_exists hr'
      refine ⟨hr', ?_⟩
      rw [least_top ht, least_top ht']
      have := transfer_top h ht ht'
      linarith
    induction h with
    | single h => exact step h hr
    | tail _ h ih =>
      obtain ⟨g1, g2⟩ := step h ih.1
      exact ⟨g1, ih.2.trans g2⟩
  exact key.2

/-- **C133**: moving probability from the most likely class to the second makes the margin smaller. -/
theorem C133_margin {r r' : List ℝ} {a b x : ℝ} {l : List ℝ} (h1 : r.Perm (a :: b :: l)) (hl : ∀ v ∈ l, v ≤ b) (h2 : r'.Perm ((a - x) :: (b + x) :: l)) (hx : 0 < x)
    (hxa : x < a - b) : marginScore r.length r < marginScore r'.length r' := by
  rw [kth_margin h1 (by linarith) hl]
  rcases le_total (b + x) (a - x) with h | h
  · rw [kth_margin h2 h (fun v hv => by have := hl v hv; linarith)]
    linarith
  · rw [kth_margin (h2.trans (List.Perm.swap _ _ _)) h (fun v hv => by have := hl v hv; linarith)]
    linarith

/-- But the margin does not see what is evener otherwise: when probability moves from the second to the third class, the prediction gets evener and the margin larger,
so that the example with the less even prediction is preferred. -/
theorem C133_margin_violation {r r' rest : List ℝ} {a b d x : ℝ} (h1 : r.Perm (a :: b :: d :: rest)) (h2 : r'.Perm (a :: (b - x) :: (d + x) :: rest))
    (hab : b ≤ a) (hl : ∀ v ∈ rest, v ≤ d) (hx : 0 < x) (hxb : x < b - d) :
    Spec.Evener r r' ∧ marginScore r'.length r' < marginScore r.length r := by
  refine ⟨.single ⟨b, d, x, a :: rest, ?_, ?_, hx, hxb⟩, ?_⟩
  · exact h1.trans ((List.Perm.swap b a _).trans ((List.Perm.swap d a _).cons b))
  · exact h2.trans ((List.Perm.swap (b - x) a _).trans ((List.Perm.swap (d + x) a _).cons (b - x)))
  · rw [kth_margin h1 hab (by
      intro v hv
      rcases List.mem_cons.1 hv with rfl | hv
      · linarith
      · have := hl v hv; linarith)]
    rcases le_total (d + x) (b - x) with h | h
    · rw [kth_margin h2 (by linarith) (by
        intro v hv
        rcases List.mem_cons.1 hv with rfl | hv
        · exact h
        · have := hl v hv; linarith)]
      linarith
    · rw [kth_margin (h2.trans ((List.Perm.swap _ _ _).cons a)) (by linarith) (by
        intro v hv
        rcases List.mem_cons.1 hv with rfl | hv
        · exact h
        · have := hl v hv; linarith)]
      linarith

/-! ## The most uncertain prediction -/

theorem sum_map_fin (r : List ℝ) (f : ℝ → ℝ) : (r.map f).sum = ∑ i : Fin r.length, f r[i] := by
  rw [← List.sum_ofFn]
  congr 1
  apply List.ext_getElem (by simp)
  intro i h1 h2
  simp

theorem equal_value {r : List ℝ} (h : Spec.AllEqual r) (hs : r.sum = 1) {v : ℝ} (hv : v ∈ r) : v = 1 / r.length := by
  have : r = List.replicate r.length v := List.eq_replicate_iff.2 ⟨rfl, fun b hb => h b hb v hv⟩
  have hs' : r.length * v = 1 := by
    have e : r.sum = r.length * v := by
      conv_lhs => rw [this]
      simp
    rw [← e, hs]
  have hl : (r.length : ℝ) ≠ 0 := by
    have := List.length_pos_of_mem hv
    exact_mod_cast this.ne'
  field_simp
  linarith

theorem entropy_less {r s : List ℝ} (hr : Spec.Distribution r) (hs : Spec.Distribution s) (hl : r.length = s.length) (he : Spec.AllEqual s) (hn : ¬ Spec.AllEqual r) :
    entropyScore Real.log (clip r) < entropyScore Real.log (clip s) := by
  rw [clip_pos hr.1, clip_pos hs.1]
  unfold entropyScore
  set f : ℝ → ℝ := fun v => v * Real.log (v + 1 / 1000000000) with hf
  have hpos : 0 < r.length := by
    rcases Nat.eq_zero_or_pos r.length with h | h
    · have := List.length_eq_zero_iff.1 h
      subst this
      have := hr.2
      simp at this
    · exact h
  have hn0 : (0 : ℝ) < r.length := by exact_mod_cast hpos
  have es : (s.map f).sum = r.length * f (1 / r.length) := by
    have : s.map f = List.replicate s.length (f (1 / r.length)) := by
      rw [List.eq_replicate_iff]
      refine ⟨by simp, ?_⟩
      intro b hb
      obtain ⟨v, hv, rfl⟩ := List.mem_map.1 hb
      rw [equal_value he hs.2 hv, hl]
    rw [this, List.sum_replicate, hl]
    simp
  unfold Spec.AllEqual at hn
  push Not at hn
  obtain ⟨a, ha, b, hb, hab⟩ := hn
  obtain ⟨i, hi, rfl⟩ := List.getElem_of_mem ha
  obtain ⟨j, hj, rfl⟩ := List.getElem_of_mem hb
  have key := term_convex.map_sum_lt (t := Finset.univ) (w := fun _ : Fin r.length => 1 / (r.length : ℝ)) (p := fun i => r[i])
    (fun _ _ => by positivity) (by simp; field_simp) (fun i _ => hr.1 _ (List.getElem_mem _)) ⟨⟨i, hi⟩, Finset.mem_univ _, ⟨j, hj⟩, Finset.mem_univ _, hab⟩
  simp only [smul_eq_mul] at key
  rw [← Finset.mul_sum, ← Finset.mul_sum] at key
  have e1 : ∑ i : Fin r.length, r[i] = 1 := by
    have := sum_map_fin r id
    simp only [List.map_id, id] at this
    rw [← this, hr.2]
  rw [e1, mul_one, ← sum_map_fin r f] at key
  rw [es]
  have : r.length * f (1 / r.length) < (r.map f).sum := by
    have h := mul_lt_mul_of_pos_left key hn0
    have e2 : (r.length : ℝ) * (1 / r.length * (r.map f).sum) = (r.map f).sum := by rw [← mul_assoc, mul_one_div_cancel hn0.ne', one_mul]
    rw [e2] at h
    exact h
  linarith

theorem least_less {r s : List ℝ} (hr : Spec.Distribution r) (hs : Spec.Distribution s) (hl : r.length = s.length) (he : Spec.AllEqual s) (hn : ¬ Spec.AllEqual r) :
    leastScore r.length r < leastScore s.length s := by
  have hne : r ≠ [] := by
    rintro rfl
    exact hn (by simp [Spec.AllEqual])
  have hne' : s ≠ [] := by
    rintro rfl
    exact hne (List.length_eq_zero_iff.1 (by simpa using hl))
  obtain ⟨t, ht⟩ := top_exists hne
  obtain ⟨t', ht'⟩ := top_exists hne'
  rw [least_top ht, least_top ht', equal_value he hs.2 ht'.1, ← hl]
  have hn0 : (0 : ℝ) < r.length := by
    have := List.length_pos_iff.2 hne
    exact_mod_cast this
  -- not all entries are the largest one
  have hlt : r.sum < r.length * t := by
    unfold Spec.AllEqual at hn
    push Not at hn
    obtain ⟨a, ha, b, hb, hab⟩ := hn
    have : ∃ v ∈ r, v < t := by
      rcases (ht.2 a ha).lt_or_eq with h | h
      · exact ⟨a, ha, h⟩
      · refine ⟨b, hb, lt_of_le_of_ne (ht.2 b hb) ?_⟩
        rw [← h]
        exact Ne.symm hab
    obtain ⟨v, hv, hvt⟩ := this
    obtain ⟨p, q, rfl⟩ := List.append_of_mem hv
    have hbound : ∀ l : List ℝ, (∀ x ∈ l, x ≤ t) → l.sum ≤ l.length * t := by
      intro l hl
      induction l with
      | nil => simp
      | cons a l ih =>
        have h1 := ih (fun x hx => hl x (by simp [hx]))
        have h2 := hl a (by simp)
        simp only [List.sum_cons, List.length_cons]
        push_cast
        linarith
    have g1 := hbound p (fun x hx => ht.2 x (by simp [hx]))
    have g2 := hbound q (fun x hx => ht.2 x (by simp [hx]))
    simp only [List.sum_append, List.sum_cons, List.length_append, List.length_cons]
    push_cast
    linarith
  rw [hr.2] at hlt
  have : 1 / (r.length : ℝ) < t := by
    rw [div_lt_iff₀ hn0]
    linarith
  linarith

theorem margin_less {r s : List ℝ} (hl : r.length = s.length) (he : Spec.AllEqual s) {m : ℝ} (hm : Spec.IsMargin r m) (h0 : 0 < m) :
    marginScore r.length r < marginScore s.length s := by
  obtain ⟨a, b, rest, p1, p2, p3, rfl⟩ := hm
  rw [kth_margin p1 p2 p3]
  have hlen : 2 ≤ s.length := by
    rw [← hl, p1.length_eq]
    simp
  match s, hlen with
  | x :: y :: l, _ =>
    have hxy : x = y := he x (by simp) y (by simp)
    rw [kth_margin (List.Perm.refl _) hxy.ge (fun v hv => (he v (by simp [hv]) y (by simp)).le)]
    linarith

/-- **C133**: an example whose classes are all equally likely is selected before every example for which they are not, by entropy. -/
theorem C133_even_entropy {argsort : List ℝ → List Nat} (ha : ∀ l, Spec.IsArgsort l (argsort l)) {u : Coll α} (hu : u.items.Nodup)
    {c : Nat} {rows : List (List ℝ)} (hf : Spec.Fits u.items.length .entropy (.mat c rows)) (hd : ∀ r ∈ rows, Spec.Distribution r)
    {batch : Int} {r : List α} (hr : uncertainty Real.log argsort .entropy u (.mat c rows) batch = .ok r) :
    Spec.NoneBetter u.items r (fun j i => ∃ rj ri, rows[j]? = some rj ∧ rows[i]? = some ri ∧ Spec.AllEqual rj ∧ ¬ Spec.AllEqual ri) := by
  obtain ⟨h1, h2, h3⟩ := hf
  rintro i j x y hi hj hx hy ⟨rj, ri, ej, ei, h4, h5⟩
  simp only [uncertainty, if_neg h1] at hr
  have key := byLargest_best ha hu (by simpa using h2) hr hi hj hx hy (a := entropyScore Real.log (clip ri)) (b := entropyScore Real.log (clip rj))
    (by simp [ei]) (by simp [ej])
  have mi := List.mem_of_getElem? ei
  have mj := List.mem_of_getElem? ej
  exact absurd key (not_le.2 (entropy_less (hd _ mi) (hd _ mj) (by rw [h3 _ mi, h3 _ mj]) h4 h5))

/-- **C133**: the same by least confidence. -/
theorem C133_even_least_confident {log : ℝ → ℝ} {argsort : List ℝ → List Nat} (ha : ∀ l, Spec.IsArgsort l (argsort l)) {u : Coll α} (hu : u.items.Nodup)
    {c : Nat} {rows : List (List ℝ)} (hf : Spec.Fits u.items.length .leastConfident (.mat c rows)) (hd : ∀ r ∈ rows, Spec.Distribution r)
    {batch : Int} {r : List α} (hr : uncertainty log argsort .leastConfident u (.mat c rows) batch = .ok r) :
    Spec.NoneBetter u.items r (fun j i => ∃ rj ri, rows[j]? = some rj ∧ rows[i]? = some ri ∧ Spec.AllEqual rj ∧ ¬ Spec.AllEqual ri) := by
  obtain ⟨h1, h2, h3⟩ := hf
  rintro i j x y hi hj hx hy ⟨rj, ri, ej, ei, h4, h5⟩
  simp only [uncertainty, if_neg h1] at hr
  have key := byLargest_best ha hu (by simpa using h2) hr hi hj hx hy (a := leastScore c ri) (b := leastScore c rj) (by simp [ei]) (by simp [ej])
  have mi := List.mem_of_getElem? ei
  have mj := List.mem_of_getElem? ej
  have := least_less (hd _ mi) (hd _ mj) (by rw [h3 _ mi, h3 _ mj]) h4 h5
  rw [h3 _ mi, h3 _ mj] at this
  exact absurd key (not_le.2 this)

/-- **C133**: by margin it is selected before every example with one most likely class. -/
theorem C133_even_margin {log : ℝ → ℝ} {argsort : List ℝ → List Nat} (ha : ∀ l, Spec.IsArgsort l (argsort l)) {u : Coll α} (hu : u.items.Nodup)
    {c : Nat} {rows : List (List ℝ)} (hf : Spec.Fits u.items.length .margin (.mat c rows))
    {batch : Int} {r : List α} (hr : uncertainty log argsort .margin u (.mat c rows) batch = .ok r) :
    Spec.NoneBetter u.items r (fun j i => ∃ rj ri m, rows[j]? = some rj ∧ rows[i]? = some ri ∧ Spec.AllEqual rj ∧ Spec.IsMargin ri m ∧ 0 < m) := by
  obtain ⟨h1, h2, h3⟩ := hf
  rintro i j x y hi hj hx hy ⟨rj, ri, m, ej, ei, h4, h5, h6⟩
  simp only [uncertainty, if_neg h1] at hr
  have key := byLargest_best ha hu (by simpa using h2) hr hi hj hx hy (a := marginScore c ri) (b := marginScore c rj) (by simp [ei]) (by simp [ej])
  have mi := List.mem_of_getElem? ei
  have mj := List.mem_of_getElem? ej
  have := margin_less (by rw [h3 _ mi, h3 _ mj]) h4 h5 h6
  rw [h3 _ mi, h3 _ mj] at this
  exact absurd key (not_le.2 this)

/-- 0.6, 0.3, 0.1 gets evener by moving 0.2 from the first to the last class. -/
example : Spec.Evener [3/5, 3/10, 1/10] [2/5, 3/10, 3/10] ∧ entropyScore Real.log (clip [3/5, 3/10, 1/10]) < entropyScore Real.log (clip [2/5, 3/10, 3/10]) := by
  have h : Spec.Evener [3/5, 3/10, 1/10] [2/5, 3/10, 3/10] := by
    refine .single ⟨3/5, 1/10, 1/5, [3/10], (List.Perm.swap _ _ _).cons _, ?_, by norm_num, by norm_num⟩
    norm_num
  exact ⟨h, C133_entropy_score h (by norm_num)⟩

/-- The margin prefers 0.4, 0.35, 0.25 to the evener 0.4, 0.3, 0.3. -/
example : marginScore 3 [(2/5 : ℝ), 7/20 - 1/20, 1/4 + 1/20] < marginScore 3 [(2/5 : ℝ), 7/20, 1/4] := (C133_margin_violation (rest := []) (.refl _) (.refl _) (by norm_num) (by simp) (by norm_num) (by norm_num)).2

/-- Three equally likely classes against 0.5, 0.25, 0.25. -/
example : Spec.Distribution [1/3, 1/3, 1/3] ∧ Spec.AllEqual [1/3, 1/3, 1/3] ∧ Spec.Distribution [1/2, 1/4, 1/4] ∧ ¬ Spec.AllEqual [1/2, 1/4, 1/4] := by
  refine ⟨⟨by norm_num, by norm_num⟩, by simp [Spec.AllEqual], ⟨by norm_num, by norm_num⟩, ?_⟩
  intro h
  have := h (1/2) (by simp) (1/4) (by simp)
  norm_num at this

end Alipy.Select

import Verif.Model.KnapsackFloat
import Verif.Props.Knapsack

/-!
# C115: costs that are not integers
-/
namespace Alipy.CostSensitive
open Alipy

set_option linter.unusedSectionVars false
set_option linter.unusedSimpArgs false

variable {K : Type} [AddCommMonoid K] [LinearOrder K]

/-- A float cost above the capacity behaves as the integer cost `cap + 1`. -/
def asInt (cap : Int) : Num → Int
  | .int z => z
  | .float _ => cap + 1

/-- The costs that are floats are above the capacity. -/
def FloatsAbove (cap : Int) (c : Num) : Prop := ∀ q, c = .float q → (cap : ℚ) < q

theorem from_neg {cap : Int} {c : Num} (h : FloatsAbove cap c) {j : Int} (hj : j ≤ cap) : (c.from j).val < 0 ↔ j - asInt cap c < 0 := by
  cases c with
  | int z =>
    simp only [Num.from, Num.val, asInt]
    exact_mod_cast Iff.rfl
  | float q =>
    have h1 := h q rfl
    have h2 : (j : ℚ) ≤ cap := by exact_mod_cast hj
    simp only [Num.from, Num.val, asInt]
    constructor
    · intro _; omega
    · intro _; linarith

theorem cellN_eq {cap : Int} {row : List K} {x : K} {c : Num} (h : FloatsAbove cap c) {j : Nat} (hj : (j : Int) ≤ cap) :
    cellN row (x, c) j = cell row (x, asInt cap c) j := by
  unfold cellN cell
  cases pyAt row j with
  | none => rfl
  | some old =>
    simp only []
    by_cases hneg : (j : Int) - asInt cap c < 0
    · rw [if_pos ((from_neg h hj).2 hneg), if_pos hneg]
    · rw [if_neg (fun e => hneg ((from_neg h hj).1 e)), if_neg hneg]
      cases c with
      | int z =>
        simp only [Num.from, atNum, asInt]
        cases pyAt row ((j : Int) - z) <;> rfl
      | float q => exfalso; apply hneg; simp only [asInt]; omega

theorem mapM_congr' {α β : Type} {f g : α → Except PyErr β} : ∀ {l : List α}, (∀ a ∈ l, f a = g a) → l.mapM f = l.mapM g
  | [], _ => rfl
  | a :: l, h => by rw [List.mapM_cons, List.mapM_cons, h a (by simp), mapM_congr' (fun b hb => h b (by simp [hb]))]

theorem mapM_length' {α β : Type} {f : α → Except PyErr β} : ∀ {l : List α} {r : List β}, l.mapM f = .ok r → r.length = l.length
  | [], r, h => by simp [pure, Except.pure] at h; subst h; rfl
  | a :: l, r, h => by
    rw [List.mapM_cons] at h
    cases hf : f a with
    | error e => rw [hf] at h; cases h
    | ok x =>
      cases hl : l.mapM f with
      | error e => rw [hf, hl] at h; cases h
      | ok xs =>
        rw [hf, hl] at h
        injection h with h
        subst h
        simp [mapM_length' hl]

theorem rowsN_eq {cap : Nat} : ∀ (its : List (K × Num)) (rs : List (List K)), (∀ it ∈ its, FloatsAbove cap it.2) → (rs.headD []).length = cap + 1 →
    rowsN its rs = rows (its.map (fun it => (it.1, asInt cap it.2))) rs
  | [], rs, _, _ => rfl
  | it :: its, rs, h, hl => by
    have e : (List.range (rs.headD []).length).mapM (cellN (rs.headD []) it) = nextRow (rs.headD []) (it.1, asInt cap it.2) := by
      unfold nextRow
      apply mapM_congr'
      intro j hj
      have := List.mem_range.1 hj
      exact cellN_eq (h it (by simp)) (by omega)
    rw [rowsN, List.map_cons, rows, e]
    cases hr : nextRow (rs.headD []) (it.1, asInt cap it.2) with
    | error e => rfl
    | ok r =>
      simp only []
      exact rowsN_eq its (r :: rs) (fun x hx => h x (by simp [hx])) (by
        have := mapM_length' hr
        simp only [List.headD_cons, this, List.length_range, hl])

theorem tracebackN_eq {cap : Int} : ∀ (its : List (K × Num)) (rs : List (List K)) (j : Int), (∀ it ∈ its, FloatsAbove cap it.2 ∧ 0 ≤ it.2.val) → j ≤ cap →
    tracebackN its rs j = traceback (its.map (fun it => (it.1, asInt cap it.2))) rs j
  | [], _, _, _, _ => by simp [tracebackN, traceback]
  | it :: its, [], j, _, _ => by simp [tracebackN, traceback]
  | it :: its, [_], j, _, _ => by simp [tracebackN, traceback]
  | it :: its, r1 :: r0 :: rs, j, h, hj => by
    obtain ⟨x, c⟩ := it
    have hc := h (x, c) (by simp)
    have hrec := fun i hi => tracebackN_eq its (r0 :: rs) i (fun y hy => h y (by simp [hy])) hi
    rw [tracebackN, List.map_cons, traceback]
    by_cases hneg : j - asInt cap c < 0
    · rw [if_neg (by have := (from_neg hc.1 hj).2 hneg; exact not_le.2 this), if_neg (by simp only; omega), hrec j hj]
    · rw [if_pos (by
        have : ¬ (c.from j).val < 0 := fun e => hneg ((from_neg hc.1 hj).1 e)
        exact not_lt.1 this), if_pos (by simp only; omega)]
      cases c with
      | float q => exfalso; apply hneg; simp only [asInt]; omega
      | int z =>
        have hz : 0 ≤ z := by have := hc.2; simp only [Num.val] at this; exact_mod_cast this
        have e : asInt cap (Num.int z) = z := rfl
        simp only [Num.from, atNum, e]
        cases pyAt r1 j with
        | none => rfl
        | some a =>
          cases pyAt r0 (j - z) with
          | none => rfl
          | some b => simp only [hrec (j - z) (by omega), hrec j hj]

theorem knapsackN_eq {vals : List K} {costs : List Num} {cap : Int} (hc : ∀ c ∈ costs, FloatsAbove cap c ∧ 0 ≤ c.val) (hcap : 0 ≤ cap) :
    knapsackN vals costs (.int cap) = knapsack vals (costs.map (asInt cap)) cap := by
  obtain ⟨n, rfl⟩ := Int.eq_ofNat_of_zero_le hcap
  have hz : ∀ it ∈ vals.zip costs, FloatsAbove n it.2 ∧ 0 ≤ it.2.val := fun it hit => hc _ (List.of_mem_zip hit).2
  have e : vals.zip (costs.map (asInt n)) = (vals.zip costs).map (fun it => (it.1, asInt n it.2)) := by
    rw [List.zip_map_right]; rfl
  unfold knapsackN knapsack
  simp only [List.length_map]
  rw [e, rowsN_eq (cap := n) _ _ (fun it hit => (hz it hit).1) (by simp)]
  split
  · rfl
  · split
    · rfl
    · cases hr : rows ((vals.zip costs).map (fun it => (it.1, asInt n it.2))) [List.replicate ((n : Int) + 1).toNat 0] with
      | error e => rfl
      | ok rs =>
        simp only []
        rw [tracebackN_eq (cap := n) _ _ _ (fun it hit => hz it (List.mem_reverse.1 hit)) (le_refl _), List.map_reverse]
        rfl

theorem sumOf_nonneg' : ∀ (s : List Bool) (l : List ℚ), (∀ x ∈ l, 0 ≤ x) → 0 ≤ Spec.sumOf s l
  | [], l, _ => by simp [Spec.sumOf]
  | b :: s, [], _ => by simp [Spec.sumOf]
  | true :: s, x :: l, h => by
    have := sumOf_nonneg' s l (fun y hy => h y (by simp [hy]))
    have := h x (by simp)
    simp only [Spec.sumOf]; linarith
  | false :: s, x :: l, h => by
    simpa only [Spec.sumOf] using sumOf_nonneg' s l (fun y hy => h y (by simp [hy]))

theorem sumOf_asInt {cap : Int} : ∀ (s : List Bool) (l : List Num), (∀ c ∈ l, FloatsAbove cap c ∧ 0 ≤ c.val) → 0 ≤ cap →
    ((Spec.sumOf s (l.map Num.val) ≤ cap ↔ Spec.sumOf s (l.map (asInt cap)) ≤ cap) ∧
      (Spec.sumOf s (l.map (asInt cap)) ≤ cap → Spec.sumOf s (l.map Num.val) = Spec.sumOf s (l.map (asInt cap))))
  | [], l, _, h => by simp [Spec.sumOf]
  | b :: s, [], _, h => by simp [Spec.sumOf]
  | false :: s, x :: l, h, hc => by
    simpa only [List.map_cons, Spec.sumOf] using sumOf_asInt s l (fun y hy => h y (by simp [hy])) hc
  | true :: s, x :: l, h, hc => by
    obtain ⟨h1, h2⟩ := sumOf_asInt s l (fun y hy => h y (by simp [hy])) hc
    have hx := h x (by simp)
    have hn := sumOf_nonneg' s (l.map Num.val) (by
      intro y hy
      obtain ⟨c, hc', rfl⟩ := List.mem_map.1 hy
      exact (h c (by simp [hc'])).2)
    have hn' : 0 ≤ Spec.sumOf s (l.map (asInt cap)) := sumOf_nonneg s _ (by
      intro y hy
      obtain ⟨c, hc', rfl⟩ := List.mem_map.1 hy
      have := (h c (by simp [hc'])).2
      cases c with
      | int z => simp only [asInt]; simp only [Num.val] at this; exact_mod_cast this
      | float q => simp only [asInt]; omega)
    simp only [List.map_cons, Spec.sumOf]
    cases x with
    | int z =>
      have hz : 0 ≤ z := by have := hx.2; simp only [Num.val] at this; exact_mod_cast this
      simp only [Num.val, asInt]
      by_cases hle : Spec.sumOf s (l.map (asInt cap)) ≤ cap
      · rw [h2 hle]
        exact ⟨by exact_mod_cast Iff.rfl, fun _ => by push_cast; rfl⟩
      · have : ¬ Spec.sumOf s (l.map Num.val) ≤ cap := fun e => hle (h1.1 e)
        have hz' : (0 : ℚ) ≤ z := by exact_mod_cast hz
        constructor
        · constructor
          · intro e; exfalso; apply this; linarith
          · intro e; exfalso; apply hle; omega
        · intro e; exfalso; apply hle; omega
    | float q =>
      have hq := hx.1 q rfl
      simp only [Num.val, asInt]
      constructor
      · constructor
        · intro e; exfalso; linarith
        · intro e; exfalso; omega
      · intro e; exfalso; omega

/-- **C115** (partial: the floats have to be above the capacity): for non-negative costs of any kind, an integer capacity and all costs within the capacity integers, a best selection within the
capacity is returned, with its value. -/
theorem C115_optimal_partial [IsOrderedAddMonoid K] {vals : List K} {costs : List Num} {cap : Int} (hl : vals.length = costs.length) (hc : ∀ c ∈ costs, 0 ≤ c.val) (hcap : 0 ≤ cap)
    (hint : ∀ c ∈ costs, c.val ≤ cap → ∃ z, c = .int z) :
    ∃ best f, knapsackN vals costs (.int cap) = .ok (best, f) ∧ f.length = vals.length ∧ Spec.sumOf f (costs.map Num.val) ≤ cap ∧ Spec.sumOf f vals = best ∧
      ∀ s : List Bool, s.length = vals.length → Spec.sumOf s (costs.map Num.val) ≤ cap → Spec.sumOf s vals ≤ best := by
  have hall : ∀ c ∈ costs, FloatsAbove cap c ∧ 0 ≤ c.val := by
    intro c hcc
    refine ⟨fun q hq => ?_, hc c hcc⟩
    by_contra hle
    obtain ⟨z, hz⟩ := hint c hcc (by subst hq; exact not_lt.1 hle)
    rw [hq] at hz; cases hz
  obtain ⟨best, f, h1, h2, h3, h4, h5⟩ := C44_optimal (vals := vals) (costs := costs.map (asInt cap)) (cap := cap) (by simpa using hl) (by
    intro y hy
    obtain ⟨c, hcc, rfl⟩ := List.mem_map.1 hy
    have := hc c hcc
    cases c with
    | int z => simp only [asInt]; simp only [Num.val] at this; exact_mod_cast this
    | float q => simp only [asInt]; omega) hcap
  exact ⟨best, f, by rw [knapsackN_eq hall hcap, h1], h2, (sumOf_asInt f costs hall hcap).1.2 h3, h4, fun s hs hle => h5 s hs ((sumOf_asInt s costs hall hcap).1.1 hle)⟩

theorem mapM_error' {α β : Type} {f : α → Except PyErr β} {e : PyErr} : ∀ {l : List α}, (∀ a ∈ l, (∃ x, f a = .ok x) ∨ f a = .error e) → (∃ a ∈ l, f a = .error e) → l.mapM f = .error e
  | [], _, h => by simp at h
  | a :: l, h, hex => by
    rw [List.mapM_cons]
    rcases h a (by simp) with ⟨x, hx⟩ | hx
    · have : ∃ b ∈ l, f b = .error e := by
        obtain ⟨b, hb, hbe⟩ := hex
        rcases List.mem_cons.1 hb with rfl | hb'
        · rw [hx] at hbe; cases hbe
        · exact ⟨b, hb', hbe⟩
      rw [hx, mapM_error' (fun b hb => h b (by simp [hb])) this]
      rfl
    · rw [hx]; rfl

theorem rowsN_float {cap : Nat} : ∀ (its : List (K × Num)) (rs : List (List K)), (∀ it ∈ its, 0 ≤ it.2.val) → (rs.headD []).length = cap + 1 →
    (∃ it ∈ its, ∃ q : ℚ, it.2 = .float q ∧ q ≤ cap) → rowsN its rs = .error .indexError
  | [], _, _, _, h => by simp at h
  | it :: its, rs, hn, hl, h => by
    rw [rowsN]
    have hcells : ∀ j ∈ List.range (rs.headD []).length, (∃ x, cellN (rs.headD []) it j = .ok x) ∨ cellN (rs.headD []) it j = .error .indexError := by
      intro j hj
      unfold cellN atNum
      cases pyAt (rs.headD []) (j : Int) with
      | none => exact .inr rfl
      | some old =>
        simp only []
        split
        · exact .inl ⟨_, rfl⟩
        · split <;> rename_i hs
          · split at hs <;> first | (split at hs <;> cases hs; exact .inr rfl) | (cases hs; exact .inr rfl)
          · exact .inl ⟨_, rfl⟩
    by_cases hit : ∃ q, it.2 = .float q ∧ q ≤ cap
    · obtain ⟨q, hq, hle⟩ := hit
      rw [mapM_error' hcells ⟨cap, List.mem_range.2 (by omega), ?_⟩]
      unfold cellN
      cases pyAt (rs.headD []) (cap : Int) with
      | none => rfl
      | some old =>
        simp only [hq, Num.from, Num.val, Int.cast_natCast]
        rw [if_neg (by push Not; linarith)]
        rfl
    · cases hm : (List.range (rs.headD []).length).mapM (cellN (rs.headD []) it) with
      | error e =>
        simp only []
        by_contra hne
        have : ∃ j ∈ List.range (rs.headD []).length, cellN (rs.headD []) it j = .error .indexError := by
          by_contra hno
          push Not at hno
          have hok : ∀ j ∈ List.range (rs.headD []).length, ∃ x, cellN (rs.headD []) it j = .ok x := fun j hj => (hcells j hj).resolve_right (hno j hj)
          classical
          choose! g hg using hok
          rw [mapM_forall₂ hg] at hm
          cases hm
        rw [mapM_error' hcells this] at hm
        injection hm with hm
        exact hne (by rw [← hm])
      | ok r =>
        simp only []
        refine rowsN_float (cap := cap) its (r :: rs) (fun x hx => hn x (by simp [hx])) ?_ ?_
        · have := mapM_length' hm
          simp only [List.headD_cons, this, List.length_range, hl]
        · obtain ⟨x, hx, hq⟩ := h
          rcases List.mem_cons.1 hx with rfl | h'
          · exact absurd hq hit
          · exact ⟨x, h', hq⟩

/-- Violation: one cost that is a float (also `2.0`) and not above the capacity, and the call raises IndexError. -/
theorem C115_float_violation {vals : List K} {costs : List Num} {cap : Int} (hl : vals.length = costs.length) (hc : ∀ c ∈ costs, 0 ≤ c.val) (hcap : 0 ≤ cap)
    (h : ∃ q : ℚ, .float q ∈ costs ∧ q ≤ cap) : knapsackN vals costs (.int cap) = .error .indexError := by
  obtain ⟨n, rfl⟩ := Int.eq_ofNat_of_zero_le hcap
  unfold knapsackN
  simp only []
  rw [if_neg (by simpa using hl), if_neg (by omega), rowsN_float (cap := n) _ _ (fun it hit => hc _ (List.of_mem_zip hit).2) (by simp)]
  obtain ⟨q, hq, hle⟩ := h
  obtain ⟨i, hi, he⟩ := List.getElem_of_mem hq
  refine ⟨(vals[i]'(by omega), costs[i]), ?_, q, he, by exact_mod_cast hle⟩
  rw [← List.getElem_zip (h := by simp; omega)]
  exact List.getElem_mem _

/-- Violation: the capacity is documented as a float; a float raises TypeError, whatever the items. -/
theorem C115_capacity_violation {vals : List K} {costs : List Num} (hl : vals.length = costs.length) (q : ℚ) : knapsackN vals costs (.float q) = .error .typeError := by
  simp [knapsackN, hl]

theorem candidates_label {order : Nat → List Nat} {budget : Nat} : ∀ {js : List Nat} {ls : List (List (Nat × Nat))}, js.mapM (candidates order budget) = .ok ls → ∀ p ∈ ls.flatten, p.2 ∈ js
  | [], ls, h => by simp [pure, Except.pure] at h; subst h; simp
  | j :: js, ls, h => by
    rw [List.mapM_cons] at h
    cases hf : candidates order budget j with
    | error e => rw [hf] at h; cases h
    | ok x =>
      cases hl : js.mapM (candidates order budget) with
      | error e => rw [hf, hl] at h; cases h
      | ok xs =>
        rw [hf, hl] at h
        injection h with h
        subst h
        intro p hp
        rw [List.flatten_cons, List.mem_append] at hp
        rcases hp with hp | hp
        · unfold candidates at hf
          simp only [] at hf
          split at hf
          · cases hf
          · injection hf with hf
            subst hf
            obtain ⟨k, -, rfl⟩ := List.mem_map.1 hp
            simp
        · exact List.mem_cons_of_mem _ (candidates_label hl p hp)

/-- Violation: in the strategies one class with a float cost is enough: the costs become an array of floats, and if some candidate is not too expensive the selection raises. -/
theorem C115_strategy_violation {c budget : Nat} {info : Nat → Nat → K} {order : Nat → List Nat} {costs : List Num} (hlen : costs.length = c) (hc : ∀ x ∈ costs, 0 ≤ x.val)
    {ls : List (List (Nat × Nat))} (hcand : (List.range c).mapM (candidates order budget) = .ok ls)
    (hfl : ∃ q, .float q ∈ costs) (hcheap : ∃ p ∈ ls.flatten, ((costs.getD p.2 (.int 0)).val ≤ budget)) : selectPairsN c info order costs budget = .error .indexError := by
  have hlab : ∀ p ∈ ls.flatten, p.2 < c := fun p hp => List.mem_range.1 (candidates_label hcand p hp)
  have hany : costs.any Num.isFloat = true := by
    obtain ⟨q, hq⟩ := hfl
    exact List.any_eq_true.2 ⟨_, hq, rfl⟩
  have hget : ∀ j, j < c → (npNums costs).getD j (.int 0) = .float (costs.getD j (.int 0)).val := by
    intro j hj
    rw [npNums, if_pos hany, List.getD_eq_getElem _ _ (by simp; omega), List.getD_eq_getElem _ _ (by omega), List.getElem_map]
  unfold selectPairsN
  rw [if_pos hlen, hcand]
  simp only []
  rw [C115_float_violation (by simp only [List.length_map]) ?_ (by omega) ?_]
  · intro x hx
    obtain ⟨p, hp, rfl⟩ := List.mem_map.1 hx
    rw [hget _ (hlab p hp)]
    have hj := hlab p hp
    rw [List.getD_eq_getElem _ _ (by omega)]
    exact hc (costs[p.2]'(by omega)) (List.getElem_mem _)
  · obtain ⟨p, hp, hle⟩ := hcheap
    exact ⟨_, List.mem_map.2 ⟨p, hp, hget _ (hlab p hp)⟩, by exact_mod_cast hle⟩

/-! ## Cases -/

/-- A float above the capacity is harmless, one within it is not. -/
example : knapsackN [3, 4, (5 : ℚ)] [.int 2, .float (15/2), .int 3] (.int 5) = .ok (8, [true, false, true]) := by decide +kernel
example : knapsackN [3, 4, (5 : ℚ)] [.int 2, .float 2, .int 3] (.int 5) = .error .indexError := by decide +kernel
example : knapsackN [3, 4, (5 : ℚ)] [.int 2, .int 2, .int 3] (.float 5) = .error .typeError := by decide +kernel
example : ∀ c ∈ [Num.int 2, .float (15/2), .int 3], c.val ≤ (5 : ℚ) → ∃ z, c = .int z := by
  intro c hc
  simp only [List.mem_cons, List.not_mem_nil, or_false] at hc
  rcases hc with rfl | rfl | rfl
  · exact fun _ => ⟨_, rfl⟩
  · intro h; norm_num [Num.val] at h
  · exact fun _ => ⟨_, rfl⟩
/-- Two classes, three instances, budget 3; the first class costs 3/2. -/
example : (List.range 2).mapM (candidates (fun _ => [0, 1, 2]) 3) = .ok [[(2, 0), (1, 0)], [(2, 1), (1, 1)]] ∧
    selectPairsN (K := ℚ) 2 (fun i _ => i) (fun _ => [0, 1, 2]) [.int 1, .float (3/2)] 3 = .error .indexError ∧
    selectPairsN (K := ℚ) 2 (fun i _ => i) (fun _ => [0, 1, 2]) [.int 1, .int 2] 3 = .ok [(2, 0), (2, 1)] := by decide +kernel

end Alipy.CostSensitive

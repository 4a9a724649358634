import Verif.Model.Knapsack
import Verif.Spec.Knapsack
import Mathlib.Tactic.Linarith
import Mathlib.Tactic.Ring
import Mathlib.Data.List.GetD
/-!
# Properties of selecting items under a budget (C44, C49)
-/
set_option linter.unusedSectionVars false
namespace Alipy.CostSensitive
open Alipy

/-! ## C44 -/
section Knapsack
variable {K : Type} [AddCommMonoid K] [LinearOrder K] [IsOrderedAddMonoid K]

/-- Value and cost of a selection of items. -/
def val (s : List Bool) (its : List (Item K)) : K := Spec.sumOf s (its.map Prod.fst)
def cst (s : List Bool) (its : List (Item K)) : Int := Spec.sumOf s (its.map Prod.snd)

/-- `x` is the best value of a selection of `its` (in reverse order) with cost at most `j`. -/
def IsBest (its : List (Item K)) (j : Int) (x : K) : Prop :=
  (∃ s, s.length = its.length ∧ cst s its ≤ j ∧ val s its = x) ∧ ∀ s, s.length = its.length → cst s its ≤ j → val s its ≤ x

theorem sumOf_nonneg : ∀ (s : List Bool) (l : List Int), (∀ x ∈ l, 0 ≤ x) → 0 ≤ Spec.sumOf s l
  | [], l, _ => by simp [Spec.sumOf]
  | b :: s, [], _ => by simp [Spec.sumOf]
  | true :: s, x :: l, h => by
    have := sumOf_nonneg s l (fun y hy => h y (by simp [hy]))
    have := h x (by simp)
    simp only [Spec.sumOf]; omega
  | false :: s, x :: l, h => by
    simp only [Spec.sumOf]
    exact sumOf_nonneg s l (fun y hy => h y (by simp [hy]))

/-- A row holds the best values. -/
def Good (its : List (Item K)) (cap : Nat) (r : List K) : Prop := r.length = cap + 1 ∧ ∀ (j : Nat) x, r[j]? = some x → IsBest its j x

theorem pyAt_nat {β : Type} (l : List β) (j : Nat) : pyAt l (j : Int) = l[j]? := by simp [pyAt]

theorem best_cons {its : List (Item K)} {it : Item K} (hc : 0 ≤ it.2) (hn : ∀ x ∈ its, 0 ≤ x.2) {j : Nat} {a : K} (ha : IsBest its j a) :
    ((j : Int) - it.2 < 0 → IsBest (it :: its) j a) ∧
    (∀ b, IsBest its ((j : Int) - it.2) b → IsBest (it :: its) j (max a (b + it.1))) := by
  obtain ⟨⟨s, hs1, hs2, hs3⟩, ha2⟩ := ha
  constructor
  · intro hlt
    refine ⟨⟨false :: s, by simp [hs1], by simpa [cst, Spec.sumOf] using hs2, by simpa [val, Spec.sumOf] using hs3⟩, ?_⟩
    rintro (_ | ⟨c, t⟩) ht1 ht2
    · simp at ht1
    · cases c with
      | false => exact ha2 t (by simpa using ht1) (by simpa [cst, Spec.sumOf] using ht2)
      | true =>
        exfalso
        have h0 : 0 ≤ cst t its := sumOf_nonneg t _ (by intro x hx; obtain ⟨i, hi, rfl⟩ := List.mem_map.1 hx; exact hn i hi)
        simp only [cst, List.map_cons, Spec.sumOf] at ht2 h0
        omega
  · rintro b ⟨⟨t, ht1, ht2, ht3⟩, hb2⟩
    refine ⟨?_, ?_⟩
    · rcases max_choice a (b + it.1) with h | h
      · refine ⟨false :: s, by simp [hs1], by simpa [cst, Spec.sumOf] using hs2, ?_⟩
        rw [h]; simpa [val, Spec.sumOf] using hs3
      · refine ⟨true :: t, by simp [ht1], ?_, ?_⟩
        · simp only [cst, List.map_cons, Spec.sumOf] at ht2 ⊢; omega
        · rw [h]
          simp only [val, List.map_cons, Spec.sumOf] at ht3 ⊢
          rw [ht3]; exact add_comm _ _
    · rintro (_ | ⟨c, q⟩) hq1 hq2
      · simp at hq1
      · cases c with
        | false =>
          apply le_max_of_le_left
          exact ha2 q (by simpa using hq1) (by simpa [cst, Spec.sumOf] using hq2)
        | true =>
          apply le_max_of_le_right
          have := hb2 q (by simpa using hq1) (by simp only [cst, List.map_cons, Spec.sumOf] at hq2 ⊢; omega)
          simp only [val, List.map_cons, Spec.sumOf] at this ⊢
          rw [add_comm b]
          exact add_le_add_right this _

theorem mapM_forall₂ {α β : Type} {f : α → Except PyErr β} {g : α → β} : ∀ {l : List α}, (∀ a ∈ l, f a = .ok (g a)) → l.mapM f = .ok (l.map g)
  | [], _ => rfl
  | a :: l, h => by
    rw [List.mapM_cons, h a (by simp), mapM_forall₂ (fun b hb => h b (by simp [hb]))]
    rfl

/-- The value of a cell for non-negative costs. -/
def cellVal (row : List K) (it : Item K) (j : Nat) : K :=
  if (j : Int) - it.2 < 0 then row.getD j 0 else max (row.getD j 0) (row.getD ((j : Int) - it.2).toNat 0 + it.1)

theorem nextRow_good {its : List (Item K)} {it : Item K} (hc : 0 ≤ it.2) (hn : ∀ x ∈ its, 0 ≤ x.2) {cap : Nat} {r : List K} (hr : Good its cap r) :
    ∃ r', nextRow r it = .ok r' ∧ Good (it :: its) cap r' ∧
      ∀ (j : Nat), j ≤ cap → ∃ a, r[j]? = some a ∧ (((j : Int) - it.2 < 0 ∧ r'[j]? = some a) ∨
        (0 ≤ (j : Int) - it.2 ∧ ∃ b, r[((j : Int) - it.2).toNat]? = some b ∧ r'[j]? = some (max a (b + it.1)))) := by
  obtain ⟨hlen, hbest⟩ := hr
  have hcell : ∀ j ∈ List.range r.length, cell r it j = .ok (cellVal r it j) := by
    intro j hj
    have hj' := List.mem_range.1 hj
    unfold cell cellVal
    rw [pyAt_nat, List.getElem?_eq_getElem hj']
    simp only
    split_ifs with hlt
    · simp [hj']
    · have h1 : ((j : Int) - it.2).toNat < r.length := by omega
      have h2 : pyAt r ((j : Int) - it.2) = some r[((j : Int) - it.2).toNat] := by
        unfold pyAt
        rw [if_pos (by omega), List.getElem?_eq_getElem h1]
      rw [h2]
      simp [hj', h1]
  have hget : ∀ j, j ≤ cap → ∃ a, r[j]? = some a ∧ (((j : Int) - it.2 < 0 ∧ ((List.range r.length).map (cellVal r it))[j]? = some a) ∨
        (0 ≤ (j : Int) - it.2 ∧ ∃ b, r[((j : Int) - it.2).toNat]? = some b ∧ ((List.range r.length).map (cellVal r it))[j]? = some (max a (b + it.1)))) := by
    intro j hj
    have hj' : j < r.length := by omega
    refine ⟨r[j], List.getElem?_eq_getElem hj', ?_⟩
    have hv : ((List.range r.length).map (cellVal r it))[j]? = some (cellVal r it j) := by simp [hj']
    rw [hv]
    unfold cellVal
    by_cases hlt : (j : Int) - it.2 < 0
    · left; rw [if_pos hlt]; simp [hj', hlt]
    · right
      have h1 : ((j : Int) - it.2).toNat < r.length := by omega
      refine ⟨by omega, r[((j : Int) - it.2).toNat], List.getElem?_eq_getElem h1, ?_⟩
      rw [if_neg hlt]; simp [hj', h1]
  refine ⟨_, mapM_forall₂ hcell, ⟨by simp [hlen], ?_⟩, hget⟩
  intro j x hx
  have hj : j ≤ cap := by
    have := (List.getElem?_eq_some_iff.1 hx).1
    simp at this
    omega
  obtain ⟨a, ha, h | ⟨h0, b, hb, h⟩⟩ := hget j hj
  · rw [h.2] at hx
    simp at hx
    subst hx
    exact (best_cons hc hn (hbest j _ ha)).1 h.1
  · rw [h] at hx
    simp at hx
    subst hx
    have hb' := hbest _ _ hb
    rw [Int.toNat_of_nonneg h0] at hb'
    exact (best_cons hc hn (hbest j _ ha)).2 b hb'

/-- A stack of rows, the last one first, with the items that belong to them. -/
inductive Stack (cap : Nat) : List (Item K) → List (List K) → Prop
  | base : Stack cap [] [List.replicate (cap + 1) 0]
  | push {its : List (Item K)} {it : Item K} {r r' : List K} {rs : List (List K)} : Stack cap its (r :: rs) → 0 ≤ it.2 → nextRow r it = .ok r' →
      Good its cap r → Good (it :: its) cap r' →
      (∀ (j : Nat), j ≤ cap → ∃ a, r[j]? = some a ∧ (((j : Int) - it.2 < 0 ∧ r'[j]? = some a) ∨
        (0 ≤ (j : Int) - it.2 ∧ ∃ b, r[((j : Int) - it.2).toNat]? = some b ∧ r'[j]? = some (max a (b + it.1))))) → Stack cap (it :: its) (r' :: r :: rs)

theorem stack_good {cap : Nat} {its : List (Item K)} {rs : List (List K)} (h : Stack cap its rs) : ∃ r rest, rs = r :: rest ∧ Good its cap r := by
  cases h with
  | base =>
    refine ⟨_, _, rfl, by simp, ?_⟩
    intro j x hx
    have hx0 : x = 0 := by
      have := List.mem_of_getElem? hx
      exact (List.mem_replicate.1 this).2
    subst hx0
    refine ⟨⟨[], rfl, by simp [cst, Spec.sumOf], by simp [val, Spec.sumOf]⟩, ?_⟩
    intro s hs _
    cases s with
    | nil => simp [val, Spec.sumOf]
    | cons b s => simp at hs
  | push _ _ _ _ h _ => exact ⟨_, _, rfl, h⟩

theorem stack_nonneg {cap : Nat} {its : List (Item K)} {rs : List (List K)} (h : Stack cap its rs) : ∀ x ∈ its, 0 ≤ x.2 := by
  induction h with
  | base => simp
  | push _ hc _ _ _ _ ih =>
    intro x hx
    rcases List.mem_cons.1 hx with rfl | h
    · exact hc
    · exact ih x h

theorem rows_stack {cap : Nat} : ∀ (its done : List (Item K)) (rs : List (List K)), Stack cap done rs → (∀ x ∈ its, 0 ≤ x.2) →
    ∃ rs', rows its rs = .ok rs' ∧ Stack cap (its.reverse ++ done) rs'
  | [], done, rs, h, _ => ⟨rs, rfl, by simpa using h⟩
  | it :: its, done, rs, h, hn => by
    obtain ⟨r, rest, rfl, hg⟩ := stack_good h
    obtain ⟨r', h1, h2, h3⟩ := nextRow_good (hn it (by simp)) (stack_nonneg h) hg
    obtain ⟨rs', h4, h5⟩ := rows_stack its (it :: done) (r' :: r :: rest) (.push h (hn it (by simp)) h1 hg h2 h3) (fun x hx => hn x (by simp [hx]))
    refine ⟨rs', ?_, by simpa using h5⟩
    unfold rows
    simp only [List.headD_cons]
    rw [h1]
    exact h4

theorem traceback_ok {cap : Nat} : ∀ {its : List (Item K)} {rs : List (List K)}, Stack cap its rs → ∀ (j : Nat), j ≤ cap → ∀ x, (rs.headD [])[j]? = some x →
    ∃ f, traceback its rs j = .ok f ∧ f.length = its.length ∧ cst f its ≤ j ∧ val f its = x := by
  intro its rs h
  induction h with
  | base =>
    intro j hj x hx
    have hx0 : x = 0 := by
      have := List.mem_of_getElem? hx
      exact (List.mem_replicate.1 this).2
    exact ⟨[], rfl, rfl, by simp [cst, Spec.sumOf], by simp [val, Spec.sumOf, hx0]⟩
  | @push its it r r' rs hs hc hr hg hg' hcell ih =>
    intro j hj x hx
    simp only [List.headD_cons] at hx ih
    obtain ⟨a, ha, ⟨hlt, hr'⟩ | ⟨hge, b, hb, hr'⟩⟩ := hcell j hj
    · rw [hr'] at hx
      simp at hx
      subst hx
      obtain ⟨f, h1, h2, h3, h4⟩ := ih j hj a ha
      refine ⟨false :: f, ?_, by simp [h2], by simpa [cst, Spec.sumOf] using h3, by simpa [val, Spec.sumOf] using h4⟩
      unfold traceback
      rw [if_neg (by omega), h1]
      rfl
    · rw [hr'] at hx
      have e1 : pyAt r' (j : Int) = some x := by rw [pyAt_nat, hr', hx]
      have e2 : pyAt r ((j : Int) - it.2) = some b := by unfold pyAt; rw [if_pos hge, hb]
      simp at hx
      unfold traceback
      rw [if_pos (by omega), e1, e2]
      simp only
      by_cases hxb : x = b + it.1
      · rw [if_pos hxb]
        obtain ⟨f, h1, h2, h3, h4⟩ := ih ((j : Int) - it.2).toNat (by omega) b hb
        rw [Int.toNat_of_nonneg hge] at h1 h3
        refine ⟨true :: f, by rw [h1]; rfl, by simp [h2], ?_, ?_⟩
        · simp only [cst, List.map_cons, Spec.sumOf] at h3 ⊢; omega
        · simp only [val, List.map_cons, Spec.sumOf] at h4 ⊢; rw [h4, hxb]; exact add_comm _ _
      · rw [if_neg hxb]
        have hxa : x = a := by
          rcases max_choice a (b + it.1) with h | h
          · rw [← hx, h]
          · rw [h] at hx; exact absurd hx.symm hxb
        subst hxa
        obtain ⟨f, h1, h2, h3, h4⟩ := ih j hj x ha
        exact ⟨false :: f, by rw [h1]; rfl, by simp [h2], by simpa [cst, Spec.sumOf] using h3, by simpa [val, Spec.sumOf] using h4⟩

theorem sumOf_append {M : Type} [AddCommMonoid M] : ∀ (s t : List Bool) (l k : List M), s.length = l.length → Spec.sumOf (s ++ t) (l ++ k) = Spec.sumOf s l + Spec.sumOf t k
  | [], t, [], k, _ => by simp [Spec.sumOf]
  | [], _, _ :: _, _, h => by simp at h
  | _ :: _, _, [], _, h => by simp at h
  | true :: s, t, x :: l, k, h => by
    simp only [List.cons_append, Spec.sumOf]
    rw [sumOf_append s t l k (by simpa using h), add_assoc]
  | false :: s, t, x :: l, k, h => by
    simp only [List.cons_append, Spec.sumOf]
    rw [sumOf_append s t l k (by simpa using h)]

theorem sumOf_reverse {M : Type} [AddCommMonoid M] : ∀ (s : List Bool) (l : List M), s.length = l.length → Spec.sumOf s.reverse l.reverse = Spec.sumOf s l
  | [], [], _ => rfl
  | [], _ :: _, h => by simp at h
  | _ :: _, [], h => by simp at h
  | b :: s, x :: l, h => by
    rw [List.reverse_cons, List.reverse_cons, sumOf_append _ _ _ _ (by simpa using h), sumOf_reverse s l (by simpa using h)]
    cases b <;> simp [Spec.sumOf, add_comm]

/-- **C44**: for all values, non-negative integer costs and capacities the selection returned is within the capacity, has the value returned, and no other
selection within the capacity has a larger value. -/
theorem C44_optimal {vals : List K} {costs : List Int} {cap : Int} (hl : vals.length = costs.length) (hc : ∀ c ∈ costs, 0 ≤ c) (hcap : 0 ≤ cap) :
    ∃ best f, knapsack vals costs cap = .ok (best, f) ∧ f.length = vals.length ∧ Spec.sumOf f costs ≤ cap ∧ Spec.sumOf f vals = best ∧
      ∀ s : List Bool, s.length = vals.length → Spec.sumOf s costs ≤ cap → Spec.sumOf s vals ≤ best := by
  obtain ⟨n, rfl⟩ := Int.eq_ofNat_of_zero_le hcap
  have hz1 : (vals.zip costs).map Prod.fst = vals := List.map_fst_zip (by omega)
  have hz2 : (vals.zip costs).map Prod.snd = costs := List.map_snd_zip (by omega)
  have hzl : (vals.zip costs).length = vals.length := by simp [hl]
  obtain ⟨rs, h1, h2⟩ := rows_stack (cap := n) (vals.zip costs) [] _ .base (by
    intro x hx
    have : x.2 ∈ (vals.zip costs).map Prod.snd := List.mem_map_of_mem hx
    rw [hz2] at this
    exact hc _ this)
  rw [List.append_nil] at h2
  obtain ⟨r, rest, rfl, hlen, hbest⟩ := stack_good h2
  have hlt : n < r.length := by omega
  obtain ⟨f, h3, h4, h5, h6⟩ := traceback_ok h2 n (le_refl _) r[n] (List.getElem?_eq_getElem hlt)
  refine ⟨r[n], f.reverse, ?_, by simp [h4, hzl, hl], ?_, ?_, ?_⟩
  · unfold knapsack
    rw [if_neg (by simp [hl]), if_neg (by omega)]
    have : ((n : Int) + 1).toNat = n + 1 := by omega
    rw [this, h1]
    simp only
    rw [h3]
    simp only [List.headD_cons]
    rw [pyAt_nat, List.getElem?_eq_getElem hlt]
  · unfold cst at h5
    rw [List.map_reverse, hz2] at h5
    have := sumOf_reverse f costs.reverse (by simp [h4, hl])
    rw [List.reverse_reverse] at this
    rw [this]; exact h5
  · unfold val at h6
    rw [List.map_reverse, hz1] at h6
    have := sumOf_reverse f vals.reverse (by simp [h4, hl])
    rw [List.reverse_reverse] at this
    rw [this]; exact h6
  · intro s hs hsc
    have := (hbest n r[n] (List.getElem?_eq_getElem hlt)).2 s.reverse (by simp [hs, hl]) (by
      unfold cst
      rw [List.map_reverse, hz2, sumOf_reverse s costs (by omega)]
      exact hsc)
    unfold val at this
    rwa [List.map_reverse, hz1, sumOf_reverse s vals hs] at this

example : knapsack [3, 4, 5, (6 : ℚ)] [2, 3, 4, 5] 5 = .ok (7, [true, true, false, false]) := by decide +kernel

theorem mapM_error {α β : Type} {f : α → Except PyErr β} {e : PyErr} (hall : ∀ a e', f a = .error e' → e' = e) : ∀ {l : List α}, (∃ a ∈ l, ∃ e', f a = .error e') →
    l.mapM f = .error e
  | [], h => by simp at h
  | a :: l, h => by
    rw [List.mapM_cons]
    cases hf : f a with
    | error e' => rw [hall a e' hf]; rfl
    | ok b =>
      obtain ⟨a', ha', e', he'⟩ := h
      rcases List.mem_cons.1 ha' with rfl | h'
      · rw [hf] at he'; simp at he'
      · rw [mapM_error hall ⟨a', h', e', he'⟩]
        rfl

theorem cell_error (row : List K) (it : Item K) (j : Nat) (e : PyErr) (h : cell row it j = .error e) : e = .indexError := by
  unfold cell at h
  split at h
  · simpa using h.symm
  · split_ifs at h
    · split at h
      · simpa using h.symm
      · simp at h

theorem rows_negative {cap : Nat} : ∀ (its done : List (Item K)) (rs : List (List K)), Stack cap done rs → (∃ x ∈ its, x.2 < 0) → rows its rs = .error .indexError
  | [], _, _, _, h => by simp at h
  | it :: its, done, rs, h, hn => by
    obtain ⟨r, rest, rfl, hg⟩ := stack_good h
    unfold rows
    simp only [List.headD_cons]
    by_cases hneg : it.2 < 0
    · have : nextRow r it = .error .indexError := by
        apply mapM_error (fun a e' => cell_error r it a e')
        refine ⟨cap, by simp [hg.1], .indexError, ?_⟩
        have h1 : cap < r.length := by rw [hg.1]; omega
        unfold cell
        rw [pyAt_nat, List.getElem?_eq_getElem h1]
        simp only
        rw [if_neg (by omega)]
        have h2 : pyAt r ((cap : Int) - it.2) = none := by
          unfold pyAt
          rw [if_pos (by omega), List.getElem?_eq_none_iff, hg.1]
          omega
        rw [h2]
      rw [this]
    · obtain ⟨r', h1, h2, h3⟩ := nextRow_good (not_lt.1 hneg) (stack_nonneg h) hg
      rw [h1]
      apply rows_negative its (it :: done) _ (.push h (not_lt.1 hneg) h1 hg h2 h3)
      obtain ⟨x, hx, hx2⟩ := hn
      rcases List.mem_cons.1 hx with rfl | h'
      · exact absurd hx2 hneg
      · exact ⟨x, h', hx2⟩

/-- A negative cost makes the call raise instead of returning a wrong selection. -/
theorem C44_negative_cost_raises {vals : List K} {costs : List Int} {cap : Int} (hl : vals.length = costs.length) (hc : ∃ c ∈ costs, c < 0) (hcap : 0 ≤ cap) :
    knapsack vals costs cap = .error .indexError := by
  obtain ⟨n, rfl⟩ := Int.eq_ofNat_of_zero_le hcap
  have hz2 : (vals.zip costs).map Prod.snd = costs := List.map_snd_zip (by omega)
  have h1 := rows_negative (cap := n) (vals.zip costs) [] _ .base (by
    obtain ⟨c, hc1, hc2⟩ := hc
    rw [← hz2] at hc1
    obtain ⟨x, hx, rfl⟩ := List.mem_map.1 hc1
    exact ⟨x, hx, hc2⟩)
  unfold knapsack
  rw [if_neg (by simp [hl]), if_neg (by omega)]
  have : ((n : Int) + 1).toNat = n + 1 := by omega
  rw [this, h1]

example : knapsack [3, (4 : ℚ)] [2, -3] 5 = .error .indexError := by decide +kernel

end Knapsack

/-! ## C49 -/
variable {K : Type} [Field K] [LinearOrder K] [IsStrictOrderedRing K]

theorem total_eq : ∀ (s : List Bool) (l : List K), total s l = Spec.sumOf s l
  | [], l => by simp [total, Spec.sumOf]
  | b :: s, [] => by simp [total, Spec.sumOf]
  | true :: s, x :: l => by
    have := total_eq s l
    simp only [total, Spec.sumOf] at *
    simp [this]
  | false :: s, x :: l => by
    have := total_eq s l
    simp only [total, Spec.sumOf] at *
    simp [this]

/-- The invariant of the population. -/
structure PInv (vals costs : List K) (budget : K) (seen : List (List Bool)) (pop : List (Member K)) : Prop where
  /-- a solution of cost 0 and infinite value is always there -/
  zero : ∃ m ∈ pop, m.value = ⊤ ∧ m.cost = 0
  /-- every member has the fitness of its selection -/
  fit : ∀ m ∈ pop, m = evaluate vals costs budget m.sel
  len : ∀ m ∈ pop, m.sel.length = vals.length
  within : ∀ m ∈ pop, m.cost ≤ budget
  /-- every solution seen is matched by a member -/
  seen : ∀ o ∈ seen, ∃ m ∈ pop, m.value ≤ (evaluate vals costs budget o).value ∧ m.cost ≤ (evaluate vals costs budget o).cost

theorem total_nonneg {costs : List K} (hc : ∀ c ∈ costs, 0 ≤ c) : ∀ (s : List Bool), 0 ≤ total s costs := by
  intro s
  rw [total_eq]
  revert costs
  induction s with
  | nil => intro costs _; simp [Spec.sumOf]
  | cons b s ih =>
    intro costs hc
    cases costs with
    | nil => simp [Spec.sumOf]
    | cons x l =>
      have h1 := ih (costs := l) (fun c h => hc c (by simp [h]))
      have h2 := hc x (by simp)
      cases b <;> simp only [Spec.sumOf] <;> linarith

theorem possStep_inv {vals costs : List K} (hc : ∀ c ∈ costs, 0 ≤ c) {budget : K} (hb : 0 ≤ budget) {seen : List (List Bool)} {pop : List (Member K)} (h : PInv vals costs budget seen pop)
    (d : Nat × List Bool) (hd : d.2.length = vals.length) :
    PInv vals costs budget (offspring pop d :: seen) (possStep vals costs budget pop d) ∧ (offspring pop d).length = vals.length := by
  have hol : (offspring pop d).length = vals.length := by
    unfold offspring
    obtain ⟨m, hm, _⟩ := h.zero
    have hpos : 0 < pop.length := List.length_pos_of_mem hm
    have hlt : d.1 % pop.length < pop.length := Nat.mod_lt _ hpos
    rw [List.getElem?_eq_getElem hlt]
    simp only [mutate, List.length_zipWith, hd, h.len _ (List.getElem_mem hlt), min_self]
  refine ⟨?_, hol⟩
  have hev : (evaluate vals costs budget (offspring pop d)).sel = offspring pop d := rfl
  have hcost : 0 ≤ (evaluate vals costs budget (offspring pop d)).cost := total_nonneg hc _
  unfold possStep
  simp only
  split_ifs with hdom
  · refine ⟨h.zero, h.fit, h.len, h.within, ?_⟩
    intro o ho
    rcases List.mem_cons.1 ho with rfl | ho
    · rw [List.any_eq_true] at hdom
      obtain ⟨m, hm, hm2⟩ := hdom
      simp only [Bool.or_eq_true, Bool.and_eq_true, decide_eq_true_eq] at hm2
      rcases hm2 with ⟨h1, h2⟩ | ⟨h1, h2⟩
      · exact ⟨m, hm, h1.le, h2⟩
      · exact ⟨m, hm, h1, h2.le⟩
    · exact h.seen o ho
  · have hnot : ∀ m ∈ pop, ¬ (m.value < (evaluate vals costs budget (offspring pop d)).value ∧ m.cost ≤ (evaluate vals costs budget (offspring pop d)).cost) ∧
        ¬ (m.value ≤ (evaluate vals costs budget (offspring pop d)).value ∧ m.cost < (evaluate vals costs budget (offspring pop d)).cost) := by
      intro m hm
      have h1 := hdom
      rw [List.any_eq_true] at h1
      constructor
      · intro h2; exact h1 ⟨m, hm, by simp [h2.1, h2.2]⟩
      · intro h2; exact h1 ⟨m, hm, by simp [h2.1, h2.2]⟩
    have hkeep : ∀ m ∈ pop, m ∈ pop.filter (fun m => !(decide ((evaluate vals costs budget (offspring pop d)).value ≤ m.value) &&
        decide ((evaluate vals costs budget (offspring pop d)).cost ≤ m.cost))) ∨
        ((evaluate vals costs budget (offspring pop d)).value ≤ m.value ∧ (evaluate vals costs budget (offspring pop d)).cost ≤ m.cost) := by
      intro m hm
      by_cases h1 : (evaluate vals costs budget (offspring pop d)).value ≤ m.value ∧ (evaluate vals costs budget (offspring pop d)).cost ≤ m.cost
      · exact Or.inr h1
      · left
        rw [List.mem_filter]
        refine ⟨hm, ?_⟩
        rw [Bool.not_eq_true', Bool.and_eq_false_iff]
        simp only [decide_eq_false_iff_not]
        exact not_and_or.1 h1
    refine ⟨?_, ?_, ?_, ?_, ?_⟩
    · obtain ⟨m, hm, h1, h2⟩ := h.zero
      rcases hkeep m hm with hk | ⟨_, hk⟩
      · exact ⟨m, List.mem_append.2 (Or.inl hk), h1, h2⟩
      · refine ⟨_, List.mem_append.2 (Or.inr (List.mem_singleton.2 rfl)), ?_, ?_⟩
        · have h0 : total (offspring pop d) costs = 0 := le_antisymm (by rw [← h2]; exact hk) hcost
          simp [evaluate, h0]
        · exact le_antisymm (by rw [← h2]; exact hk) hcost
    · intro m hm
      rcases List.mem_append.1 hm with hm | hm
      · exact h.fit m (List.mem_filter.1 hm).1
      · rw [List.mem_singleton.1 hm]; rfl
    · intro m hm
      rcases List.mem_append.1 hm with hm | hm
      · exact h.len m (List.mem_filter.1 hm).1
      · rw [List.mem_singleton.1 hm]; exact hol
    · intro m hm
      rcases List.mem_append.1 hm with hm | hm
      · exact h.within m (List.mem_filter.1 hm).1
      · rw [List.mem_singleton.1 hm]
        by_contra hcon
        rw [not_le] at hcon
        obtain ⟨m0, hm0, h1, h2⟩ := h.zero
        refine (hnot m0 hm0).2 ⟨?_, ?_⟩
        · have : (evaluate vals costs budget (offspring pop d)).value = ⊤ := by
            have hcon' : budget < total (offspring pop d) costs := hcon
            simp [evaluate, hcon']
          rw [this]; exact le_top
        · rw [h2]; exact lt_of_le_of_lt hb hcon
    · intro o ho
      rcases List.mem_cons.1 ho with rfl | ho
      · exact ⟨_, List.mem_append.2 (Or.inr (List.mem_singleton.2 rfl)), le_refl _, le_refl _⟩
      · obtain ⟨m, hm, h1, h2⟩ := h.seen o ho
        rcases hkeep m hm with hk | ⟨hk1, hk2⟩
        · exact ⟨m, List.mem_append.2 (Or.inl hk), h1, h2⟩
        · exact ⟨_, List.mem_append.2 (Or.inr (List.mem_singleton.2 rfl)), le_trans hk1 h1, le_trans hk2 h2⟩

theorem possRun_inv {vals costs : List K} (hc : ∀ c ∈ costs, 0 ≤ c) {budget : K} (hb : 0 ≤ budget) : ∀ (draws : List (Nat × List Bool)) (pop : List (Member K)) (seen : List (List Bool)),
    (∀ d ∈ draws, d.2.length = vals.length) → PInv vals costs budget seen pop →
    PInv vals costs budget ((generated vals costs budget pop draws).reverse ++ seen) (draws.foldl (possStep vals costs budget) pop)
  | [], pop, seen, _, h => by simpa [generated] using h
  | d :: ds, pop, seen, hd, h => by
    have h1 := (possStep_inv hc hb h d (hd d (by simp))).1
    have := possRun_inv hc hb ds _ _ (fun d' h' => hd d' (by simp [h'])) h1
    simpa [generated] using this

theorem argminPos_spec {β : Type} [LinearOrder β] {l : List β} (h : l ≠ []) :
    ∃ h1 : argminPos l < l.length, ∀ w ∈ l, l[argminPos l] ≤ w := by
  have hex : ∃ v ∈ l, ∀ w ∈ l, v ≤ w := by
    induction l with
    | nil => exact absurd rfl h
    | cons a l ih =>
      by_cases hl : l = []
      · subst hl; exact ⟨a, by simp, by simp⟩
      · obtain ⟨v, hv, hm⟩ := ih hl
        rcases le_total a v with h1 | h1
        · refine ⟨a, by simp, ?_⟩
          intro w hw
          rcases List.mem_cons.1 hw with rfl | hw
          · exact le_refl _
          · exact le_trans h1 (hm w hw)
        · refine ⟨v, by simp [hv], ?_⟩
          intro w hw
          rcases List.mem_cons.1 hw with rfl | hw
          · exact h1
          · exact hm w hw
  obtain ⟨v, hv, hm⟩ := hex
  have h1 : argminPos l < l.length := by
    unfold argminPos
    rw [List.findIdx_lt_length]
    exact ⟨v, hv, by simpa using hm⟩
  refine ⟨h1, ?_⟩
  have := List.findIdx_getElem (w := h1) (p := fun v => l.all (fun w => decide (v ≤ w))) (xs := l)
  rw [List.all_eq_true] at this
  intro w hw
  exact of_decide_eq_true (this w hw)

/-- **C49** (partial: the value is infinite when no solution of positive cost within the budget has been found): for non-negative costs and budget, every number of
rounds and every sequence of random choices, a selection within the budget is returned, its value is returned, and no solution with positive cost within the
budget generated during the run has a smaller value. -/
theorem C49_best_generated_partial {vals costs : List K} {budget : K} (hl : vals.length = costs.length) (hc : ∀ c ∈ costs, 0 ≤ c) (hb : 0 ≤ budget)
    {draws : List (Nat × List Bool)} (hd : ∀ d ∈ draws, d.2.length = vals.length) :
    ∃ v sel, poss vals costs budget draws = .ok (v, sel) ∧ sel.length = vals.length ∧ Spec.sumOf sel costs ≤ budget ∧
      ((v = ((Spec.sumOf sel vals : K) : WithTop K) ∧ 0 < Spec.sumOf sel costs) ∨ (v = ⊤ ∧ Spec.sumOf sel costs = 0)) ∧
      ∀ o ∈ generated vals costs budget (possInit vals.length) draws, 0 < Spec.sumOf o costs → Spec.sumOf o costs ≤ budget →
        v ≤ ((Spec.sumOf o vals : K) : WithTop K) := by
  have hinit : PInv vals costs budget [] (possInit vals.length) := by
    have ht : total (List.replicate vals.length false) costs = 0 := by
      rw [total_eq]
      have : ∀ (n : Nat) (l : List K), Spec.sumOf (List.replicate n false) l = 0 := by
        intro n
        induction n with
        | zero => intro l; simp [Spec.sumOf]
        | succ n ih =>
          intro l
          cases l with
          | nil => simp [List.replicate_succ, Spec.sumOf]
          | cons x l => simp [List.replicate_succ, Spec.sumOf, ih]
      exact this _ _
    refine ⟨⟨_, List.mem_singleton.2 rfl, rfl, rfl⟩, ?_, ?_, ?_, by simp⟩
    · intro m hm
      rw [possInit, List.mem_singleton] at hm
      subst hm
      simp [evaluate, ht]
    · intro m hm
      rw [possInit, List.mem_singleton] at hm
      subst hm
      simp
    · intro m hm
      rw [possInit, List.mem_singleton] at hm
      subst hm
      exact hb
  have hinv := possRun_inv hc hb draws _ _ hd hinit
  rw [List.append_nil] at hinv
  unfold poss
  rw [if_neg (by simp [hl])]
  simp only
  generalize hp : possRun vals costs budget draws = pop
  have hp' : draws.foldl (possStep vals costs budget) (possInit vals.length) = pop := hp
  rw [hp'] at hinv
  have hfil : pop.filter (fun m => decide (m.cost ≤ budget)) = pop := by
    rw [List.filter_eq_self]
    intro m hm
    simpa using hinv.within m hm
  have hne : pop ≠ [] := by
    obtain ⟨m, hm, _⟩ := hinv.zero
    exact List.ne_nil_of_mem hm
  rw [hfil, if_neg (by simpa using hne)]
  obtain ⟨h1, h2⟩ := argminPos_spec (l := pop.map (fun m => m.value)) (by simpa using hne)
  have h1' : argminPos (pop.map (fun m => m.value)) < pop.length := by simpa using h1
  rw [List.getElem?_eq_getElem h1']
  simp only
  rw [List.getElem_map] at h2
  have hmem := List.getElem_mem h1'
  generalize pop[argminPos (pop.map (fun m => m.value))] = best at h2 hmem
  have hfit := hinv.fit best hmem
  have hcost : best.cost = Spec.sumOf best.sel costs := by
    rw [← total_eq]; exact congrArg Member.cost hfit
  have hwithin := hinv.within best hmem
  have h0 : 0 ≤ Spec.sumOf best.sel costs := by rw [← total_eq]; exact total_nonneg hc _
  refine ⟨best.value, best.sel, rfl, hinv.len best hmem, by rw [← hcost]; exact hwithin, ?_, ?_⟩
  · have hv : best.value = (evaluate vals costs budget best.sel).value := congrArg Member.value hfit
    by_cases hz : Spec.sumOf best.sel costs = 0
    · right
      refine ⟨?_, hz⟩
      rw [hv]
      simp [evaluate, total_eq, hz]
    · left
      refine ⟨?_, lt_of_le_of_ne h0 (Ne.symm hz)⟩
      rw [hv]
      have : ¬ (budget < Spec.sumOf best.sel costs) := not_lt.2 (by rw [← hcost]; exact hwithin)
      simp [evaluate, total_eq, hz, this]
  · intro o ho hpos hle
    obtain ⟨m, hm, hm1, _⟩ := hinv.seen o (List.mem_reverse.2 ho)
    have hm2 := h2 m.value (List.mem_map_of_mem hm)
    refine le_trans hm2 (le_trans hm1 ?_)
    have hne0 : Spec.sumOf o costs ≠ 0 := ne_of_gt hpos
    simp [evaluate, total_eq, hne0, not_lt.2 hle]

/-- If every item is too expensive (or there is no round at all) the value returned is infinite, although the selection returned, the empty one, has value 0. -/
theorem C49_infinite_violation {vals costs : List K} {budget : K} (hl : vals.length = costs.length) (hc : ∀ c ∈ costs, 0 ≤ c) (hb : 0 ≤ budget)
    {draws : List (Nat × List Bool)} (hd : ∀ d ∈ draws, d.2.length = vals.length) (hexp : ∀ s : List Bool, Spec.sumOf s costs = 0 ∨ budget < Spec.sumOf s costs) :
    ∃ sel, poss vals costs budget draws = .ok (⊤, sel) ∧ Spec.sumOf sel costs = 0 := by
  obtain ⟨v, sel, h1, h2, h3, h4, _⟩ := C49_best_generated_partial hl hc hb hd
  have h0 : Spec.sumOf sel costs = 0 := by
    rcases hexp sel with h | h
    · exact h
    · exact absurd h3 (not_le.2 h)
  rcases h4 with ⟨_, h⟩ | ⟨rfl, _⟩
  · rw [h0] at h; exact absurd h (lt_irrefl _)
  · exact ⟨sel, h1, h0⟩

example : poss [-3, -4, (-5 : ℚ)] [2, 3, 4] 5 [(0, [true, false, false]), (1, [false, true, false]), (0, [false, false, true])] =
    .ok (((-7 : ℚ) : WithTop ℚ), [true, true, false]) := by decide +kernel

end Alipy.CostSensitive

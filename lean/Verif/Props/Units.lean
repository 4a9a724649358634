import Verif.Props.Knapsack
import Verif.Props.CostSelect
import Verif.Props.CostRandom
import Verif.Props.CostCurve
import Verif.Props.IEthresh
import Verif.Props.Stopping
import Mathlib.Algebra.Order.Group.Int
/-!
# C125: the unit in which costs and values are measured does not matter
-/
set_option linter.unusedSectionVars false
namespace Alipy.CostSensitive
open Alipy

/-! ## The knapsack -/
section Knapsack
variable {K K' : Type} [AddCommMonoid K] [LinearOrder K] [IsOrderedAddMonoid K] [AddCommMonoid K'] [LinearOrder K'] [IsOrderedAddMonoid K']

/-- The items measured in other units. -/
def rescale (φ : K →+ K') (t : Int) (its : List (Item K)) : List (Item K') := its.map (fun it => (φ it.1, t * it.2))

theorem sumOf_hom {M N : Type} [AddCommMonoid M] [AddCommMonoid N] (φ : M →+ N) : ∀ (s : List Bool) (l : List M), Spec.sumOf s (l.map φ) = φ (Spec.sumOf s l)
  | [], l => by simp [Spec.sumOf]
  | true :: s, [] => by simp [Spec.sumOf]
  | false :: s, [] => by simp [Spec.sumOf]
  | true :: s, x :: l => by simp only [List.map_cons, Spec.sumOf, map_add, sumOf_hom φ s l]
  | false :: s, x :: l => by simp only [List.map_cons, Spec.sumOf, sumOf_hom φ s l]

theorem val_rescale (φ : K →+ K') (t : Int) (s : List Bool) (its : List (Item K)) : val s (rescale φ t its) = φ (val s its) := by
  unfold val rescale
  rw [← sumOf_hom, List.map_map, List.map_map]
  rfl

theorem cst_rescale (φ : K →+ K') (t : Int) (s : List Bool) (its : List (Item K)) : cst s (rescale φ t its) = t * cst s its := by
  have := sumOf_hom (AddMonoidHom.mulLeft t) s (its.map Prod.snd)
  unfold cst rescale
  rw [List.map_map] at this ⊢
  exact this

theorem isBest_unique {its : List (Item K)} {j : Int} {x y : K} (hx : IsBest its j x) (hy : IsBest its j y) : x = y := by
  obtain ⟨⟨s, h1, h2, h3⟩, h4⟩ := hx
  obtain ⟨⟨s', h1', h2', h3'⟩, h4'⟩ := hy
  exact le_antisymm (h3 ▸ h4' s h1 h2) (h3' ▸ h4 s' h1' h2')

theorem isBest_rescale {φ : K →+ K'} (hφ : StrictMono φ) {t : Int} (ht : 0 < t) {its : List (Item K)} {j : Int} {x : K} (h : IsBest its j x) :
    IsBest (rescale φ t its) (t * j) (φ x) := by
  obtain ⟨⟨s, h1, h2, h3⟩, h4⟩ := h
  refine ⟨⟨s, by simpa [rescale] using h1, ?_, by rw [val_rescale, h3]⟩, fun s' g1 g2 => ?_⟩
  · rw [cst_rescale]
    exact mul_le_mul_of_nonneg_left h2 ht.le
  · rw [cst_rescale] at g2
    rw [val_rescale]
    exact hφ.monotone (h4 s' (by simpa [rescale] using g1) (le_of_mul_le_mul_left g2 ht))

theorem good_at {its : List (Item K)} {cap : Nat} {r : List K} (h : Good its cap r) {j : Nat} (hj : j ≤ cap) : ∃ x, r[j]? = some x ∧ IsBest its j x :=
  ⟨_, List.getElem?_eq_getElem (by rw [h.1]; omega), h.2 j _ (List.getElem?_eq_getElem (by rw [h.1]; omega))⟩

theorem good_rescale {φ : K →+ K'} (hφ : StrictMono φ) {t : Nat} (ht : 0 < t) {its : List (Item K)} {cap : Nat} {r : List K} {r' : List K'} (h : Good its cap r)
    (h' : Good (rescale φ t its) (t * cap) r') {j : Nat} (hj : j ≤ cap) : ∃ x, r[j]? = some x ∧ r'[t * j]? = some (φ x) := by
  obtain ⟨x, h1, h2⟩ := good_at h hj
  obtain ⟨y, h3, h4⟩ := good_at h' (Nat.mul_le_mul_left t hj)
  refine ⟨x, h1, ?_⟩
  rw [h3]
  have := isBest_rescale hφ (t := t) (by exact_mod_cast ht) h2
  push_cast at h4
  rw [isBest_unique h4 this]

theorem traceback_rescale {φ : K →+ K'} (hφ : StrictMono φ) {t : Nat} (ht : 0 < t) {cap : Nat} : ∀ {its : List (Item K)} {rs : List (List K)}, Stack cap its rs → ∀ {rs' : List (List K')},
    Stack (t * cap) (rescale φ t its) rs' → ∀ (j : Nat), j ≤ cap → traceback (rescale φ t its) rs' ((t * j : Nat) : Int) = traceback its rs (j : Int) := by
  intro its rs h
  induction h with
  | base =>
    intro rs' h' j hj
    rfl
  | @push its it r r' rs hs hc hr hg hg' hcell ih =>
    intro rs' h' j hj
    have e : rescale φ t (it :: its) = (φ it.1, t * it.2) :: rescale φ t its := rfl
    rw [e] at h' ⊢
    cases h' with
    | @push _ _ q q' qs hs' hc' hr' hgq hgq' hcell' =>
      have ht' : (0 : Int) < t := by exact_mod_cast ht
      unfold traceback
      have hcond : (((t * j : Nat) : Int) - t * it.2 ≥ 0) ↔ ((j : Int) - it.2 ≥ 0) := by
        push_cast
        rw [← mul_sub]
        exact mul_nonneg_iff_of_pos_left ht'
      by_cases hge : (j : Int) - it.2 ≥ 0
      · simp only
        rw [if_pos (hcond.2 hge), if_pos hge]
        have hn : (((j : Int) - it.2).toNat : Int) = (j : Int) - it.2 := Int.toNat_of_nonneg hge
        obtain ⟨a, a1, a2⟩ := good_rescale hφ ht hg' (by rw [e]; exact hgq') hj
        obtain ⟨b, b1, b2⟩ := good_rescale hφ ht hg hgq (j := ((j : Int) - it.2).toNat) (by omega)
        have e1 : pyAt r' (j : Int) = some a := by rw [pyAt_nat, a1]
        have e2 : pyAt r ((j : Int) - it.2) = some b := by rw [← hn, pyAt_nat, b1]
        have e3 : pyAt q' ((t * j : Nat) : Int) = some (φ a) := by rw [pyAt_nat, a2]
        have hsub : ((t * j : Nat) : Int) - t * it.2 = ((t * ((j : Int) - it.2).toNat : Nat) : Int) := by
          push_cast
          rw [hn, mul_sub]
        have e4 : pyAt q (((t * j : Nat) : Int) - t * it.2) = some (φ b) := by rw [hsub, pyAt_nat, b2]
        rw [e1, e2, e3, e4]
        simp only
        rw [← map_add]
        by_cases hab : a = b + it.1
        · rw [if_pos hab, if_pos (by rw [hab])]
          rw [hsub, ih hs' _ (by omega), hn]
        · rw [if_neg hab, if_neg (fun h => hab (hφ.injective h)), ih hs' j hj]
      · simp only
        rw [if_neg (fun h => hge (hcond.1 h)), if_neg hge, ih hs' j hj]

/-- **C125** The knapsack does not depend on the units: with all costs and the capacity multiplied by a positive integer, and all values sent through a strictly increasing additive map (multiplied
by a positive number, say), the same items are selected, and the best value is the old one in the new unit. -/
theorem C125_knapsack {φ : K →+ K'} (hφ : StrictMono φ) {t : Nat} (ht : 0 < t) {vals : List K} {costs : List Int} {cap : Int} (hl : vals.length = costs.length) (hc : ∀ c ∈ costs, 0 ≤ c)
    (hcap : 0 ≤ cap) :
    knapsack (vals.map φ) (costs.map (fun c => t * c)) (t * cap) = (knapsack vals costs cap).map (fun r => (φ r.1, r.2)) := by
  obtain ⟨n, rfl⟩ := Int.eq_ofNat_of_zero_le hcap
  have hz : (vals.map φ).zip (costs.map (fun c => (t : Int) * c)) = rescale φ t (vals.zip costs) := by
    rw [List.zip_map]
    rfl
  have hnn : ∀ x ∈ vals.zip costs, 0 ≤ x.2 := fun x hx => hc _ (List.of_mem_zip hx).2
  obtain ⟨rs, h1, h2⟩ := rows_stack (cap := n) (vals.zip costs) [] _ .base hnn
  obtain ⟨rs', h1', h2'⟩ := rows_stack (cap := t * n) (rescale φ t (vals.zip costs)) [] _ .base (by
    intro x hx
    obtain ⟨y, hy, rfl⟩ := List.mem_map.1 hx
    exact mul_nonneg (by exact_mod_cast Nat.zero_le t) (hnn y hy))
  rw [List.append_nil] at h2 h2'
  have hrev : (rescale φ t (vals.zip costs)).reverse = rescale φ t (vals.zip costs).reverse := by
    unfold rescale
    rw [List.map_reverse]
  rw [hrev] at h2'
  obtain ⟨r, rest, rfl, hg⟩ := stack_good h2
  obtain ⟨r', rest', rfl, hg'⟩ := stack_good h2'
  obtain ⟨x, x1, x2⟩ := good_rescale hφ ht hg hg' (le_refl n)
  have htr := traceback_rescale hφ ht h2 h2' n (le_refl n)
  obtain ⟨f, hf, -⟩ := traceback_ok h2 n (le_refl _) x (by simpa using x1)
  have e1 : ((n : Int) + 1).toNat = n + 1 := by omega
  have e2 : ((t : Int) * (n : Int) + 1).toNat = t * n + 1 := by
    have : (t : Int) * (n : Int) = ((t * n : Nat) : Int) := by push_cast; rfl
    omega
  have e3 : (t : Int) * (n : Int) = ((t * n : Nat) : Int) := by push_cast; rfl
  unfold knapsack
  rw [if_neg (show ¬ (vals.map φ).length ≠ (costs.map (fun c => (t : Int) * c)).length by simp [hl]), if_neg (show ¬ vals.length ≠ costs.length by simp [hl]),
    if_neg (show ¬ (t : Int) * (n : Int) + 1 < 0 by rw [e3]; omega), if_neg (show ¬ (n : Int) + 1 < 0 by omega), e2, hz, h1', e1, h1]
  simp only
  rw [hrev, e3, htr, hf]
  simp only [List.headD_cons]
  rw [pyAt_nat, pyAt_nat, x1, x2]
  rfl

example : StrictMono (AddMonoidHom.mulLeft (5 : ℚ)) := fun a b h => by simpa using h
example : knapsack [3, 4, 5, (6 : ℚ)] [2, 3, 4, 5] 5 = .ok (7, [true, true, false, false]) ∧
    knapsack [15, 20, 25, (30 : ℚ)] [6, 9, 12, 15] 15 = .ok (35, [true, true, false, false]) := by decide +kernel

/-- A larger budget is never worse, whatever the items. -/
theorem C125_more_budget {vals : List K} {costs : List Int} {cap cap' : Int} (hl : vals.length = costs.length) (hc : ∀ c ∈ costs, 0 ≤ c) (hcap : 0 ≤ cap) (hle : cap ≤ cap') {r r' : K × List Bool}
    (h : knapsack vals costs cap = .ok r) (h' : knapsack vals costs cap' = .ok r') : r.1 ≤ r'.1 := by
  obtain ⟨b, f, g1, g2, g3, g4, -⟩ := C44_optimal hl hc hcap
  obtain ⟨b', f', k1, -, -, -, k5⟩ := C44_optimal (vals := vals) hl hc (hcap.trans hle)
  rw [g1] at h; rw [k1] at h'
  injection h with h; injection h' with h'
  subst h; subst h'
  exact g4 ▸ k5 f g2 (g3.trans hle)

end Knapsack

variable {K : Type} [Field K] [LinearOrder K] [IsStrictOrderedRing K]

/-! ## POSS -/

theorem total_scale (t : K) : ∀ (s : List Bool) (l : List K), total s (l.map (t * ·)) = t * total s l
  | [], l => by simp [total]
  | _ :: _, [] => by simp [total]
  | b :: s, x :: l => by
    have := total_scale t s l
    simp only [total, List.map_cons, List.zipWith_cons_cons, List.sum_cons] at this ⊢
    rw [this]
    cases b <;> simp [mul_add]

/-- A value in another unit; infinity stays infinity. -/
def times (q : K) : WithTop K → WithTop K := WithTop.map (q * ·)

theorem times_le {q : K} (hq : 0 < q) (a b : WithTop K) : times q a ≤ times q b ↔ a ≤ b := by
  cases a with
  | top => cases b with
    | top => simp [times]
    | coe b => simp [times, ← WithTop.coe_mul]
  | coe a => cases b with
    | top => simp [times]
    | coe b =>
      simp only [times, WithTop.map_coe, WithTop.coe_le_coe]
      exact mul_le_mul_iff_right₀ hq

theorem times_lt {q : K} (hq : 0 < q) (a b : WithTop K) : times q a < times q b ↔ a < b := by
  rw [← not_le, ← not_le, times_le hq]

/-- A member of the population in other units. -/
def Member.scale (q t : K) (m : Member K) : Member K := ⟨m.sel, times q m.value, t * m.cost⟩

theorem evaluate_scale {q t : K} (ht : 0 < t) (vals costs : List K) (budget : K) (s : List Bool) :
    evaluate (vals.map (q * ·)) (costs.map (t * ·)) (t * budget) s = (evaluate vals costs budget s).scale q t := by
  have h : (t * total s costs = 0 ∨ t * budget < t * total s costs) ↔ (total s costs = 0 ∨ budget < total s costs) := by
    rw [mul_eq_zero, mul_lt_mul_iff_right₀ ht]
    simp [ht.ne']
  simp only [evaluate, Member.scale, total_scale, Member.mk.injEq, true_and, and_true]
  by_cases hc : total s costs = 0 ∨ budget < total s costs
  · rw [if_pos hc, if_pos (h.2 hc)]; rfl
  · rw [if_neg hc, if_neg (fun h' => hc (h.1 h'))]; rfl

theorem possStep_scale {q t : K} (hq : 0 < q) (ht : 0 < t) (vals costs : List K) (budget : K) (pop : List (Member K)) (d : Nat × List Bool) :
    possStep (vals.map (q * ·)) (costs.map (t * ·)) (t * budget) (pop.map (Member.scale q t)) d = (possStep vals costs budget pop d).map (Member.scale q t) := by
  have hoff : offspring (pop.map (Member.scale q t)) d = offspring pop d := by
    unfold offspring
    rw [List.length_map, List.getElem?_map]
    cases pop[d.1 % pop.length]? <;> rfl
  unfold possStep
  simp only [hoff, evaluate_scale ht]
  generalize evaluate vals costs budget (offspring pop d) = o
  have h1 : (pop.map (Member.scale q t)).any (fun m => (decide (m.value < (o.scale q t).value) && decide (m.cost ≤ (o.scale q t).cost)) ||
      (decide (m.value ≤ (o.scale q t).value) && decide (m.cost < (o.scale q t).cost))) =
      pop.any (fun m => (decide (m.value < o.value) && decide (m.cost ≤ o.cost)) || (decide (m.value ≤ o.value) && decide (m.cost < o.cost))) := by
    rw [List.any_map]
    congr 1
    funext m
    simp only [Function.comp, Member.scale, times_lt hq, times_le hq, mul_le_mul_iff_right₀ ht, mul_lt_mul_iff_right₀ ht]
  rw [h1]
  split_ifs
  · rfl
  · rw [List.map_append, List.filter_map]
    congr 2
    apply List.filter_congr
    intro m _
    simp only [Function.comp, Member.scale, times_le hq, mul_le_mul_iff_right₀ ht]

theorem possRun_scale {q t : K} (hq : 0 < q) (ht : 0 < t) (vals costs : List K) (budget : K) (draws : List (Nat × List Bool)) :
    possRun (vals.map (q * ·)) (costs.map (t * ·)) (t * budget) draws = (possRun vals costs budget draws).map (Member.scale q t) := by
  have key : ∀ (draws : List (Nat × List Bool)) (pop : List (Member K)),
      draws.foldl (possStep (vals.map (q * ·)) (costs.map (t * ·)) (t * budget)) (pop.map (Member.scale q t)) =
        (draws.foldl (possStep vals costs budget) pop).map (Member.scale q t) := by
    intro draws
    induction draws with
    | nil => intro pop; rfl
    | cons d ds ih => intro pop; rw [List.foldl_cons, List.foldl_cons, possStep_scale hq ht, ih]
  have hinit : (possInit vals.length : List (Member K)).map (Member.scale q t) = possInit (vals.map (q * ·)).length := by
    simp [possInit, Member.scale, times]
  unfold possRun
  rw [← hinit, key]

theorem argminPos_map {β γ : Type} [LinearOrder β] [LinearOrder γ] (f : β → γ) (hf : ∀ a b, f a ≤ f b ↔ a ≤ b) (l : List β) : argminPos (l.map f) = argminPos l := by
  unfold argminPos
  rw [List.findIdx_map]
  congr 1
  funext v
  simp only [Function.comp, List.all_map]
  congr 1
  funext w
  simp only [Function.comp, hf]

/-- **C125** POSS does not depend on the units of costs and values: for every sequence of random numbers the selection is the same, and the value returned is the old one in the new unit. -/
theorem C125_poss {q t : K} (hq : 0 < q) (ht : 0 < t) (vals costs : List K) (budget : K) (draws : List (Nat × List Bool)) :
    poss (vals.map (q * ·)) (costs.map (t * ·)) (t * budget) draws = (poss vals costs budget draws).map (fun r => (times q r.1, r.2)) := by
  have hok : ((possRun vals costs budget draws).map (Member.scale q t)).filter (fun m => decide (m.cost ≤ t * budget)) =
      ((possRun vals costs budget draws).filter (fun m => decide (m.cost ≤ budget))).map (Member.scale q t) := by
    rw [List.filter_map]
    congr 1
    apply List.filter_congr
    intro m _
    simp only [Function.comp, Member.scale, mul_le_mul_iff_right₀ ht]
  unfold poss
  simp only [List.length_map, possRun_scale hq ht, hok]
  split_ifs with h1 h2 h3 h4
  · rfl
  · rfl
  · rw [List.isEmpty_map] at h2; exact absurd h2 h3
  · rw [List.isEmpty_map] at h2; exact absurd h4 h2
  · rw [List.map_map, show ((fun m : Member K => m.value) ∘ Member.scale q t) = times q ∘ (fun m => m.value) from rfl, ← List.map_map, argminPos_map (times q) (times_le hq), List.getElem?_map]
    cases (possRun vals costs budget draws)[argminPos (((possRun vals costs budget draws).filter (fun m => decide (m.cost ≤ budget))).map (fun m => m.value))]? <;> rfl

example : poss [3, 1, (2 : ℚ)] [1, 2, 3] 3 [(0, [false, true, false])] = .ok (1, [false, true, false]) ∧
    poss [30, 10, (20 : ℚ)] [5, 10, 15] 15 [(0, [false, true, false])] = .ok (10, [false, true, false]) := by decide +kernel

/-! ## Random selection under a budget -/

theorem randomLoop_scale {t : K} (ht : 0 < t) (costs : List K) (budget : K) (draw : Nat → Nat) : ∀ (fuel k : Nat) (pool : List (Int × Nat)) (cur : K) (acc : List (Int × Nat)),
    randomLoop (costs.map (t * ·)) (t * budget) draw fuel k pool (t * cur) acc = randomLoop costs budget draw fuel k pool cur acc
  | 0, _, _, _, _ => rfl
  | _ + 1, _, [], _, _ => rfl
  | fuel + 1, k, p :: pool, cur, acc => by
    simp only [randomLoop]
    cases (p :: pool)[draw k % (p :: pool).length]? with
    | none => rfl
    | some x =>
      simp only [List.getElem?_map]
      cases costs[x.2]? with
      | none => rfl
      | some c =>
        simp only [Option.map_some]
        rw [← mul_add]
        simp only [mul_lt_mul_iff_right₀ ht]
        split_ifs
        · rfl
        · exact randomLoop_scale ht costs budget draw fuel (k + 1) _ (cur + c) _

/-- **C125** Random cost-sensitive selection does not depend on the unit of the costs: with the same random numbers it returns the same pairs. -/
theorem C125_random {t : K} (ht : 0 < t) (fuel nClasses : Nat) (u : List (Int × Nat)) (costs : List K) (budget : K) (draw : Nat → Nat) :
    randomSelect fuel nClasses u (some (costs.map (t * ·))) (t * budget) draw = randomSelect fuel nClasses u (some costs) budget draw := by
  simp only [randomSelect, labelCosts, List.length_map]
  split
  · rename_i h; split at h
    · cases h
    · rename_i hne; rw [if_neg hne]; cases h; rfl
  · rename_i h; split at h
    · rename_i he
      rw [if_pos he]
      cases h
      have := randomLoop_scale ht costs budget draw fuel 0 u 0 []
      rwa [mul_zero] at this
    · cases h

example : randomSelect 5 2 [(0, 0), (1, 1), (2, 0)] (some [1, (2 : ℚ)]) 2 (fun k => k) = some (.ok [(0, 0), (2, 0)]) ∧
    randomSelect 5 2 [(0, 0), (1, 1), (2, 0)] (some [3, (6 : ℚ)]) 6 (fun k => k) = some (.ok [(0, 0), (2, 0)]) := by decide +kernel

/-! ## The two strategies -/

theorem getD_scale (t : Int) (costs : List Int) (j : Nat) : (costs.map (fun c => t * c)).getD j 0 = t * costs.getD j 0 := by
  simp only [List.getD_eq_getElem?_getD, List.getElem?_map]
  cases costs[j]? <;> simp

/-- The strategies, where the candidates are given: the knapsack is all that is left. So the unit matters only because the budget is also the number of the candidates per label. -/
theorem C125_same_candidates {V : Type} [AddCommMonoid V] [LinearOrder V] [IsOrderedAddMonoid V] {t c budget : Nat} (ht : 0 < t) {info : Nat → Nat → V} {order : Nat → List Nat} {costs : List Int}
    (hc : ∀ x ∈ costs, 0 ≤ x) (hcand : (List.range c).mapM (candidates order (t * budget)) = (List.range c).mapM (candidates order budget)) :
    selectPairs c info order (costs.map (fun x => t * x)) (t * budget) = selectPairs c info order costs budget := by
  unfold selectPairs
  rw [hcand]
  cases (List.range c).mapM (candidates order budget) with
  | error e => rfl
  | ok ls =>
    simp only
    have h := C125_knapsack (φ := AddMonoidHom.id V) strictMono_id ht (vals := ls.flatten.map (fun p => info p.1 p.2)) (costs := ls.flatten.map (fun p => costs.getD p.2 0)) (cap := budget)
      (by rw [List.length_map, List.length_map]) (by
        intro x hx
        obtain ⟨p, -, rfl⟩ := List.mem_map.1 hx
        by_cases hp : p.2 < costs.length
        · rw [List.getD_eq_getElem _ _ hp]; exact hc _ (List.getElem_mem hp)
        · rw [List.getD_eq_default _ _ (by omega)]) (by omega)
    simp only [List.map_map, Function.comp_def, AddMonoidHom.id_apply] at h
    simp only [getD_scale]
    push_cast
    rw [h]
    cases knapsack (ls.flatten.map (fun p => info p.1 p.2)) (ls.flatten.map (fun p => costs.getD p.2 0)) budget <;> rfl

/-- **C125**, violation: the strategies themselves depend on the unit, because the budget is also taken as the number of candidates of a label, less one. One label of cost 1, `n` unlabelled examples,
a budget `1 ≤ b ≤ n`: in this unit the selection is worth less than in the unit where the label costs `t ≥ 2` and the budget is `t * b`. -/
theorem C125_strategy_violation {n b t : Nat} (dv : Nat → Nat → K) (hdv : ∀ i < n, dv i 0 ≠ 0) {order : Nat → List Nat}
    (hord : Spec.Sorts n (fun i => perfInfo (fun _ _ => true) dv i 0) (order 0)) (hb : 1 ≤ b) (hn : b ≤ n) (ht : 2 ≤ t) :
    ∃ sel sel', costSelect 1 (perfInfo (fun _ _ => true) dv) order (some [1]) b = .ok sel ∧ costSelect 1 (perfInfo (fun _ _ => true) dv) order (some [(t : Int)]) (t * b) = .ok sel' ∧
      (sel.map (fun p => |1 / dv p.1 p.2|)).sum < (sel'.map (fun p => |1 / dv p.1 p.2|)).sum := by
  obtain ⟨sel, h1, T, hT1, hT2, hT3⟩ := C71_off_by_one_violation dv hdv hord hb hn
  have hord' : ∀ j < 1, Spec.Sorts n (fun i => perfInfo (fun _ _ => true) dv i j) (order j) := by
    intro j hj
    obtain rfl : j = 0 := by omega
    exact hord
  have htb : b < t * b := by nlinarith
  obtain ⟨sel', g1, -, -, -, g5⟩ := C71_performance_partial (c := 1) (budget := t * b) (cost := some [(t : Int)]) (costs := [(t : Int)]) (fun _ _ => true) dv hord' (.inr ⟨rfl, rfl⟩)
    (by simp) (by omega) (by omega)
  refine ⟨sel, sel', ?_, g1, lt_of_lt_of_le hT3 (g5 T ?_ ?_ ?_)⟩
  · rw [← h1]
    rfl
  · intro p hp
    obtain ⟨p1, p2⟩ := hT1 p hp
    exact ⟨p1, by omega, rfl⟩
  · have : ∑ p ∈ T, [(t : Int)].getD p.2 0 = ∑ p ∈ T, (t : Int) := Finset.sum_congr rfl fun p hp => by rw [(hT1 p hp).2]; rfl
    rw [this, Finset.sum_const, nsmul_eq_mul]
    have h2 : (T.card : Int) ≤ b := by exact_mod_cast hT2
    push_cast
    nlinarith
  · intro j hj
    have : (T.filter (fun p => p.2 = j)).card ≤ T.card := Finset.card_filter_le _ _
    omega

end Alipy.CostSensitive

/-! ## The cost limit -/
namespace Alipy.Stop
open Alipy Spec
variable {κ ε σ : Type} {ops : CollOps κ ε σ}

/-- **C125** A cost limit does not depend on the unit: two records with the same queries, where the costs of one, and its limit, are `t` times those of the other, lead to the same decision. -/
theorem C125_cost_limit {t : ℚ} (ht : 0 < t) {st st' : Stop} (hc : st.crit = .costLimit) (hc' : st'.crit = .costLimit) {v : ℚ} (hv : st.value = some v) (hv' : st'.value = some (t * v))
    {s s' : StateIO κ σ} {cs : List ℚ} {ns ns' : List Nat} (hcost : List.Forall₂ HasCost s.states cs) (hcost' : List.Forall₂ HasCost s'.states (cs.map (t * ·)))
    (hn : List.Forall₂ (HasSize ops) s.states ns) (hn' : List.Forall₂ (HasSize ops) s'.states ns') (hs : StateIO.InSync ops s) (hs' : StateIO.InSync ops s') {L U : κ}
    (hw : StateIO.getWorkspace ops s none = .ok (L, U)) (hw' : StateIO.getWorkspace ops s' none = .ok (L, U)) (now now' : ℚ) :
    ∃ a a' b, st.update ops s = .ok a ∧ st'.update ops s' = .ok a' ∧ a.isStop now = .ok b ∧ a'.isStop now' = .ok b := by
  have hsum : ∀ {x : StateIO κ σ} {ds : List ℚ}, List.Forall₂ HasCost x.states ds → StateIO.InSync ops x → x.cost = ds.sum := by
    intro x ds h1 h2
    obtain ⟨cs, ns, h3, -, h5, -⟩ := h2
    have : cs = ds := by
      have key : ∀ {es : List (Entry σ)} {as bs : List ℚ}, List.Forall₂ HasCost es as → List.Forall₂ HasCost es bs → as = bs := by
        intro es as bs ha
        induction ha generalizing bs with
        | nil => intro hb; cases hb; rfl
        | cons h _ ih => intro hb; cases hb with
          | cons h' hb => rw [StateIO.hasCost_unique h h', ih hb]
      exact key h3 h1
    rw [h5, this]
  obtain ⟨a, b, h1, h2, h3⟩ := C21_stop_iff_empty_or_bound_reached (ops := ops) st s L U hw v (fun _ => hv) (by simp [hc]) now
  obtain ⟨a', b', h1', h2', h3'⟩ := C21_stop_iff_empty_or_bound_reached (ops := ops) st' s' L U hw' (t * v) (fun _ => hv') (by simp [hc']) now'
  have hb : b = b' := by
    rw [Bool.eq_iff_iff, h3, h3', hc, hc']
    simp only [BoundReached]
    rw [hsum hcost hs, hsum hcost' hs']
    have : (cs.map (t * ·)).sum = t * cs.sum := by rw [List.sum_map_mul_left]; simp
    rw [this, mul_le_mul_iff_right₀ ht]
  exact ⟨a, a', b, h1, h1', h2, hb ▸ h2'⟩

end Alipy.Stop

/-! ## CEAL -/
namespace Alipy.Noisy
variable {K : Type} [Field K] [LinearOrder K] [IsStrictOrderedRing K]

theorem findIdx_best_map {f : K → K} (hf : ∀ a b, f a ≤ f b ↔ a ≤ b) (l : List K) :
    (l.map f).findIdx (fun v => (l.map f).all (fun w => decide (w ≤ v))) = l.findIdx (fun v => l.all (fun w => decide (w ≤ v))) := by
  rw [List.findIdx_map]
  congr 1
  funext v
  simp only [Function.comp, List.all_map]
  congr 1
  funext w
  simp only [Function.comp, hf]

/-- **C125** CEAL asks for the same pair of example and oracle in every unit of cost, as long as no cost is below 1/10000 (the code takes a smaller cost for 1/10000). -/
theorem C125_ceal {α ν : Type} {t : K} (ht : 0 < t) (kw : List (String × Nat)) (ini : Nat) (u : List α) (names : List ν) (dist : Nat → Nat → List K) (tops : List K) (ls : List (Labeler K))
    (hc : ∀ l ∈ ls, 1 / 10000 ≤ l.cost ∧ 1 / 10000 ≤ t * l.cost) :
    ceal kw ini u names dist tops (ls.map (fun l => { l with cost := t * l.cost })) = ceal kw ini u names dist tops ls := by
  have hev : dictGet "n_neighbors" (dictErase "n_neighbors" kw) = none := by
    rw [dictGet_dictErase]; simp
  simp only [ceal, hev, Option.getD_none, ne_eq, not_true_eq_false, if_false, List.map_map]
  split_ifs
  · rfl
  · rfl
  · have hq : ls.map ((fun l : Labeler K => tops.mapIdx (fun i x => qEntry (dist i (min ((dictGet "n_neighbors" kw).getD 10) (ini - 1))) (l.right i) x l.cost)) ∘ (fun l => { l with cost := t * l.cost })) =
        (ls.map (fun l => tops.mapIdx (fun i x => qEntry (dist i (min ((dictGet "n_neighbors" kw).getD 10) (ini - 1))) (l.right i) x l.cost))).map (List.map (fun y => y / t)) := by
      rw [List.map_map]
      apply List.map_congr_left
      intro l hl
      obtain ⟨h1, h2⟩ := hc l hl
      simp only [Function.comp]
      apply List.ext_getElem
      · simp
      · intro i h3 h4
        simp only [List.getElem_mapIdx, List.getElem_map, qEntry, max_eq_left h1, max_eq_left h2]
        rw [div_div, mul_comm l.cost t]
    rw [hq]
    unfold bestPair
    simp only [← List.map_flatten, List.isEmpty_map]
    rw [findIdx_best_map (f := fun y => y / t) (fun a b => div_le_div_iff_of_pos_right ht)]

end Alipy.Noisy

/-! ## The curve of performance against cost -/
namespace Alipy.CostCurve
open Alipy Alipy.Analyser
variable {K : Type} [Field K] [LinearOrder K] [IsStrictOrderedRing K]

/-- The method with its costs in another unit. -/
def Query.scale (t : K) (q : Query K) : Query K := { q with cost := q.cost.map (t * ·) }
def Method.scale (t : K) (m : Method K) : Method K := { m with folds := m.folds.map (List.map (Query.scale t)) }
/-- Points with the first coordinate in another unit. -/
def stretch (t : K) (p : K × K) : K × K := (t * p.1, p.2)

theorem sum_scale (t : K) (l : List K) : (l.map (t * ·)).sum = t * l.sum := by rw [List.sum_map_mul_left]; simp

theorem sums_scale (t : K) (f : List (Query K)) : sums (f.map (Query.scale t)) = (sums f).map (t * ·) := by
  unfold sums
  rw [List.map_map, List.map_map]
  apply List.map_congr_left
  intro q _
  simp only [Function.comp, Query.scale, sum_scale]

theorem totals_scale (t : K) (ms : List (Method K)) : totals (ms.map (Method.scale t)) = (totals ms).map (t * ·) := by
  unfold totals
  rw [List.map_flatten, List.map_map, List.map_map]
  congr 1
  apply List.map_congr_left
  intro m _
  simp only [Function.comp, Method.scale, List.map_map]
  apply List.map_congr_left
  intro f _
  simp only [Function.comp, sums_scale, sum_scale]

theorem minOf_scale {t : K} (ht : 0 < t) : ∀ l : List K, minOf (l.map (t * ·)) = (minOf l).map (t * ·)
  | [] => rfl
  | a :: l => by
    simp only [List.map_cons, minOf, minOf_scale ht l]
    cases minOf l with
    | none => rfl
    | some b => simp [mul_min_of_nonneg _ _ ht.le]

theorem maxOf_scale {t : K} (ht : 0 < t) : ∀ l : List K, maxOf (l.map (t * ·)) = (maxOf l).map (t * ·)
  | [] => rfl
  | a :: l => by
    simp only [List.map_cons, maxOf, maxOf_scale ht l]
    cases maxOf l with
    | none => rfl
    | some b => simp [mul_max_of_nonneg _ _ ht.le]

theorem foldPoints_scale (t : K) (fr : Option K) (f : List (Query K)) : foldPoints fr (f.map (Query.scale t)) = (foldPoints fr f).map (stretch t) := by
  have hx : xAxis (f.map (Query.scale t)) = (xAxis f).map (t * ·) := by
    unfold xAxis
    rw [List.length_map, List.map_map, sums_scale]
    apply List.map_congr_left
    intro i _
    simp only [Function.comp, ← List.map_take, sum_scale]
  have hp : (f.map (Query.scale t)).map Query.perf = f.map Query.perf := by rw [List.map_map]; rfl
  unfold foldPoints
  rw [hx, hp, List.map_append]
  congr 1
  · cases fr <;> simp [stretch]
  · rw [List.zip_map_left]
    rfl

theorem lin_scale {t : K} (ht : 0 < t) : ∀ (pts : List (K × K)) (x : K), lin (pts.map (stretch t)) (t * x) = lin pts x
  | [], _ => rfl
  | [p], _ => rfl
  | p :: q :: l, x => by
    have ih := lin_scale ht (q :: l) x
    simp only [List.map_cons] at ih ⊢
    simp only [lin, stretch, mul_le_mul_iff_right₀ ht] at ih ⊢
    split_ifs with h
    · rw [← mul_sub, ← mul_sub]
      by_cases h0 : q.1 - p.1 = 0
      · simp [h0]
      · field_simp
    · exact ih

theorem interp_scale {t : K} (ht : 0 < t) (pts : List (K × K)) (x : K) : interp (pts.map (stretch t)) (t * x) = interp pts x := by
  unfold interp
  rw [List.head?_map, List.getLast?_map]
  cases pts.head? with
  | none => rfl
  | some p => cases pts.getLast? with
    | none => rfl
    | some q =>
      simp only [Option.map_some, stretch, mul_lt_mul_iff_right₀ ht]
      rw [← lin_scale ht pts x]

variable [FloorRing K]

theorem arange_scale {t : K} (ht : 0 < t) (a b s : K) : arange (t * a) (t * b) (t * s) = (arange a b s).map (t * ·) := by
  unfold arange
  have : (t * b - t * a) / (t * s) = (b - a) / s := by rw [← mul_sub, mul_div_mul_left _ _ ht.ne']
  rw [this, List.map_map]
  apply List.map_congr_left
  intro i _
  simp only [Function.comp]
  ring

theorem drawMethod_scale {t : K} (ht : 0 < t) (allState : Bool) (xShift : K) (start : Option K) (c s : K) (m : Method K) :
    drawMethod allState (t * xShift) start (t * c) (t * s) (m.scale t) = (drawMethod allState xShift start c s m).map (fun d => (d.1, d.2.map (stretch t))) := by
  have hp : (m.scale t).folds.map (foldPoints (front allState start (m.scale t).ip)) = (m.folds.map (foldPoints (front allState start m.ip))).map (List.map (stretch t)) := by
    simp only [Method.scale, List.map_map]
    apply List.map_congr_left
    intro f _
    simp only [Function.comp, foldPoints_scale]
  unfold drawMethod
  simp only [hp]
  generalize m.folds.map (foldPoints (front allState start m.ip)) = pts
  have h1 : (pts.map (List.map (stretch t))).any (fun p => p.isEmpty) = pts.any (fun p => p.isEmpty) := by
    rw [List.any_map]
    congr 1
    funext p
    simp
  have h2 : (pts.map (List.map (stretch t))).map (fun p => (p.headD (0, 0)).1) = (pts.map (fun p => (p.headD (0, 0)).1)).map (t * ·) := by
    rw [List.map_map, List.map_map]
    apply List.map_congr_left
    intro p _
    cases p <;> simp [stretch]
  rw [h1, h2, maxOf_scale ht]
  split_ifs
  · rfl
  · cases maxOf (pts.map (fun p => (p.headD (0, 0)).1)) with
    | none => rfl
    | some x0 =>
      simp only [Option.map_some, Except.map, arange_scale ht, List.map_map, Except.ok.injEq, Prod.mk.injEq]
      refine ⟨rfl, ?_⟩
      apply List.map_congr_left
      intro x _
      simp only [Function.comp, stretch, Prod.mk.injEq]
      refine ⟨by ring, ?_⟩
      congr 1
      apply List.map_congr_left
      intro p _
      exact interp_scale ht p x

theorem mapM_scale {α β γ δ : Type} {f : α → Except PyErr β} {g : γ → Except PyErr δ} (u : α → γ) (w : β → δ) (h : ∀ a, g (u a) = (f a).map w) : ∀ l : List α,
    (l.map u).mapM g = (l.mapM f).map (List.map w)
  | [] => rfl
  | a :: l => by
    rw [List.map_cons, List.mapM_cons, List.mapM_cons, h a, mapM_scale u w h l]
    cases f a with
    | error e => rfl
    | ok b => cases l.mapM f <;> rfl

/-- **C125** The curves of performance against cost do not depend on the unit of cost: with all costs (and, if given, the distance of the points drawn and the shift) `t` times as large the same
curves are drawn, with the axis of costs in the new unit; also the errors are the same. -/
theorem C125_cost_curve {t : K} (ht : 0 < t) (allState : Bool) (ms : List (Method K)) (xShift : K) (start interval : Option K) :
    plotCurves allState (ms.map (Method.scale t)) (t * xShift) start (interval.map (t * ·)) =
      (plotCurves allState ms xShift start interval).map (List.map (fun d => (d.1, d.2.map (stretch t)))) := by
  unfold plotCurves totalCost
  rw [totals_scale, minOf_scale ht]
  cases minOf (totals ms) with
  | none => rfl
  | some c =>
    simp only [Option.map_some]
    have hs : (interval.map (t * ·)).getD (t * c / 100) = t * interval.getD (c / 100) := by
      cases interval with
      | none => simp [mul_div_assoc]
      | some s => rfl
    rw [hs]
    exact mapM_scale (Method.scale t) _ (drawMethod_scale ht allState xShift start c _) ms

/-- A case: two queries of cost 1 and 2; in cents the curve is the same. -/
example : (plotCurves true [⟨"m", [[⟨[1], 1⟩, ⟨[1, (1 : ℚ)], 3⟩]], none⟩] 0 none (some 1)).toOption = some [("m", [(1, 1), (2, 2)])] ∧
    (plotCurves true [⟨"m", [[⟨[100], 1⟩, ⟨[100, (100 : ℚ)], 3⟩]], none⟩] 0 none (some 100)).toOption = some [("m", [(100, 1), (200, 2)])] := by decide +kernel

end Alipy.CostCurve

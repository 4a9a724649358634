import Verif.Props.Knapsack
import Verif.Props.CostSelect
import Verif.Props.Batches
import Verif.Props.LeaveOut
import Verif.Props.Completion
/-!
# C152: more budget, more rounds and more choice never make the result worse
-/
set_option linter.unusedSectionVars false
namespace Alipy.MoreIsBetter
open Alipy

/-! ## The knapsack -/
section
open CostSensitive
variable {K : Type} [AddCommMonoid K] [LinearOrder K] [IsOrderedAddMonoid K]

/-- **C152**: a greater capacity. -/
theorem C152_budget {vals : List K} {costs : List Int} (hl : vals.length = costs.length) (hc : ∀ c ∈ costs, 0 ≤ c) {cap cap' : Int} (h0 : 0 ≤ cap) (h : cap ≤ cap') :
    ∃ best f best' f', knapsack vals costs cap = .ok (best, f) ∧ knapsack vals costs cap' = .ok (best', f') ∧ best ≤ best' := by
  obtain ⟨b, f, e1, e2, e3, e4, -⟩ := C44_optimal hl hc h0
  obtain ⟨b', f', g1, -, -, -, g5⟩ := C44_optimal hl hc (le_trans h0 h)
  exact ⟨b, f, b', f', e1, g1, e4 ▸ g5 f e2 (le_trans e3 h)⟩

theorem sumOf_le_right {M : Type} [AddCommMonoid M] [PartialOrder M] [IsOrderedAddMonoid M] : ∀ (s : List Bool) {l l' : List M},
    List.Forall₂ (· ≤ ·) l l' → Spec.sumOf s l ≤ Spec.sumOf s l'
  | [], _, _, _ => by simp [Spec.sumOf]
  | _ :: _, _, _, .nil => by simp [Spec.sumOf]
  | true :: s, _, _, .cons h hs => by
    simp only [Spec.sumOf]
    exact add_le_add h (sumOf_le_right s hs)
  | false :: s, _, _, .cons _ hs => by
    simp only [Spec.sumOf]
    exact sumOf_le_right s hs

/-- **C152**: cheaper and more valuable items. -/
theorem C152_better_items {vals vals' : List K} {costs costs' : List Int} (hl : vals.length = costs.length) (hv : List.Forall₂ (· ≤ ·) vals vals')
    (hcc : List.Forall₂ (· ≤ ·) costs' costs) (hc : ∀ c ∈ costs, 0 ≤ c) (hc' : ∀ c ∈ costs', 0 ≤ c) {cap : Int} (h0 : 0 ≤ cap) :
    ∃ best f best' f', knapsack vals costs cap = .ok (best, f) ∧ knapsack vals' costs' cap = .ok (best', f') ∧ best ≤ best' := by
  have hl' : vals'.length = costs'.length := by rw [← hv.length_eq, hl, hcc.length_eq]
  obtain ⟨b, f, e1, e2, e3, e4, -⟩ := C44_optimal hl hc h0
  obtain ⟨b', f', g1, -, -, -, g5⟩ := C44_optimal hl' hc' h0
  refine ⟨b, f, b', f', e1, g1, ?_⟩
  rw [← e4]
  exact le_trans (sumOf_le_right f hv) (g5 f (e2.trans hv.length_eq) (le_trans (sumOf_le_right f hcc) e3))

/-- A selection of some of the items is a selection of all of them. -/
theorem extend {M : Type} : ∀ {l l' : List M}, l.Sublist l' → ∀ s : List Bool, s.length = l.length →
    ∃ s' : List Bool, s'.length = l'.length ∧ ∀ {N : Type} [AddMonoid N] (g : M → N), Spec.sumOf s' (l'.map g) = Spec.sumOf s (l.map g) := by
  intro l l' h
  induction h with
  | slnil => exact fun s hs => ⟨s, hs, fun _ => rfl⟩
  | cons a _ ih =>
    intro s hs
    obtain ⟨s', h1, h2⟩ := ih s hs
    exact ⟨false :: s', by simp [h1], fun g => by simp [Spec.sumOf, h2]⟩
  | cons_cons a _ ih =>
    intro s hs
    cases s with
    | nil => simp at hs
    | cons b s =>
      obtain ⟨s', h1, h2⟩ := ih s (by simpa using hs)
      exact ⟨b :: s', by simp [h1], fun g => by cases b <;> simp [Spec.sumOf, h2]⟩

/-- **C152**: more items. -/
theorem C152_more_items {items items' : List (K × Int)} (h : items.Sublist items') (hc : ∀ it ∈ items', 0 ≤ it.2) {cap : Int} (h0 : 0 ≤ cap) :
    ∃ best f best' f', knapsack (items.map Prod.fst) (items.map Prod.snd) cap = .ok (best, f) ∧
      knapsack (items'.map Prod.fst) (items'.map Prod.snd) cap = .ok (best', f') ∧ best ≤ best' := by
  obtain ⟨b, f, e1, e2, e3, e4, -⟩ := C44_optimal (vals := items.map Prod.fst) (costs := items.map Prod.snd) (by simp) (by
    intro c hcm
    obtain ⟨it, hit, rfl⟩ := List.mem_map.1 hcm
    exact hc it (h.subset hit)) h0
  obtain ⟨b', f', g1, -, -, -, g5⟩ := C44_optimal (vals := items'.map Prod.fst) (costs := items'.map Prod.snd) (by simp) (by
    intro c hcm
    obtain ⟨it, hit, rfl⟩ := List.mem_map.1 hcm
    exact hc it hit) h0
  obtain ⟨s', h1, h2⟩ := extend h f (by simpa using e2)
  refine ⟨b, f, b', f', e1, g1, ?_⟩
  rw [← e4, ← h2 Prod.fst]
  exact g5 s' (by simpa using h1) (by rw [h2 Prod.snd]; exact e3)

/-- 3 and 5 for 4 and 6 units: the first fits into 5 units, with an item more the best is better. -/
example : (knapsack [(3 : ℚ), 5] [4, 6] 5).toOption = some (3, [true, false]) ∧ (knapsack [(3 : ℚ), 5] [4, 6] 10).toOption = some (8, [true, true]) ∧
    (knapsack [(3 : ℚ), 4, 5] [4, 1, 6] 5).toOption = some (7, [true, true, false]) := by decide +kernel

end

/-! ## POSS -/
section
open CostSensitive
variable {K : Type} [Field K] [LinearOrder K] [IsStrictOrderedRing K]

theorem generated_append (vals costs : List K) (budget : K) : ∀ (draws more : List (Nat × List Bool)) (pop : List (Member K)),
    generated vals costs budget pop (draws ++ more) =
      generated vals costs budget pop draws ++ generated vals costs budget (draws.foldl (possStep vals costs budget) pop) more
  | [], more, pop => by simp [generated]
  | d :: ds, more, pop => by simp [generated, generated_append vals costs budget ds]

theorem run_from (vals costs : List K) (budget : K) : ∀ (draws : List (Nat × List Bool)) (pop : List (Member K)),
    ∀ m ∈ draws.foldl (possStep vals costs budget) pop, m ∈ pop ∨ m.sel ∈ generated vals costs budget pop draws
  | [], pop, m, hm => .inl hm
  | d :: ds, pop, m, hm => by
    rcases run_from vals costs budget ds _ m hm with h | h
    · unfold possStep at h
      simp only at h
      split at h
      · exact .inl h
      · rcases List.mem_append.1 h with h | h
        · exact .inl (List.mem_filter.1 h).1
        · right
          rw [List.mem_singleton.1 h]
          simp [generated, evaluate]
    · right
      simp [generated, h]

/-- **C152**: more rounds of POSS, whatever is drawn in them: the value returned (the objective is minimised) is not larger. -/
theorem C152_rounds {vals costs : List K} {budget : K} (hl : vals.length = costs.length) (hc : ∀ c ∈ costs, 0 ≤ c) (hb : 0 ≤ budget)
    {draws more : List (Nat × List Bool)} (hd : ∀ d ∈ draws ++ more, d.2.length = vals.length) :
    ∃ v sel v' sel', poss vals costs budget draws = .ok (v, sel) ∧ poss vals costs budget (draws ++ more) = .ok (v', sel') ∧ v' ≤ v := by
  obtain ⟨v, sel, h1, -, h3, h4, -⟩ := C49_best_generated_partial hl hc hb (draws := draws) (fun d h => hd d (by simp [h]))
  obtain ⟨v', sel', g1, -, -, -, g5⟩ := C49_best_generated_partial hl hc hb hd
  refine ⟨v, sel, v', sel', h1, g1, ?_⟩
  rcases h4 with ⟨rfl, hpos⟩ | ⟨rfl, -⟩
  · refine g5 sel ?_ hpos h3
    rw [generated_append]
    refine List.mem_append.2 (.inl ?_)
    unfold poss at h1
    rw [if_neg (by simpa using hl)] at h1
    simp only at h1
    split at h1
    · cases h1
    · split at h1
      · cases h1
      · rename_i m hm
        simp only [Except.ok.injEq, Prod.mk.injEq] at h1
        obtain ⟨-, rfl⟩ := h1
        rcases run_from vals costs budget draws _ m (List.mem_of_getElem? hm) with h | h
        · exfalso
          rw [possInit, List.mem_singleton] at h
          subst h
          have hz : ∀ (n : Nat) (l : List K), Spec.sumOf (List.replicate n false) l = 0 := by
            intro n
            induction n with
            | zero => simp [Spec.sumOf]
            | succ n ih => intro l; cases l <;> simp [List.replicate_succ, Spec.sumOf, ih]
          rw [hz] at hpos
          exact lt_irrefl _ hpos
        · exact h
  · exact le_top

end

open CostSensitive in
/-- After one round the dearer of two items is found, after another one the better one. -/
example : (poss [(4 : ℚ), 1] [2, 1] 2 [(0, [true, false])]).toOption = some (((4 : ℚ) : WithTop ℚ), [true, false]) ∧
    (poss [(4 : ℚ), 1] [2, 1] 2 [(0, [true, false]), (0, [false, true])]).toOption = some (((1 : ℚ) : WithTop ℚ), [false, true]) := by decide +kernel

/-! ## Cost-sensitive selection of pairs -/
section
open CostSensitive
variable {K : Type} [Field K] [LinearOrder K] [IsStrictOrderedRing K]

/-- **C152**: a greater budget of `QueryCostSensitivePerformance`: the total uncertainty of the pairs selected is not smaller. -/
theorem C152_pairs {n c budget budget' : Nat} (unlab : Nat → Nat → Bool) (dv : Nat → Nat → K) {order : Nat → List Nat}
    (hord : ∀ j < c, Spec.Sorts n (fun i => perfInfo unlab dv i j) (order j)) {cost : Option (List Int)} {costs : List Int}
    (hcost : Spec.CostsOf c cost costs) (hc : ∀ x ∈ costs, 0 < x) (hlen : costs.length = c) (hn : c ≤ n) (hb : c ≤ budget) (hbb : budget ≤ budget') :
    ∃ sel sel', costSelect c (perfInfo unlab dv) order cost budget = .ok sel ∧ costSelect c (perfInfo unlab dv) order cost budget' = .ok sel' ∧
      (sel.map (fun p => |1 / dv p.1 p.2|)).sum ≤ (sel'.map (fun p => |1 / dv p.1 p.2|)).sum := by
  have hc0 : ∀ x ∈ costs, 0 ≤ x := fun x hx => (hc x hx).le
  obtain ⟨sel, h1, h2, h3, h4, -⟩ := C71_performance_partial unlab dv hord hcost hc0 hn hb
  obtain ⟨sel', g1, -, -, -, g5⟩ := C71_performance_partial unlab dv hord hcost hc0 hn (hb.trans hbb)
  rcases hbb.eq_or_lt with rfl | hlt
  · rw [h1] at g1
    cases g1
    exact ⟨sel, sel, h1, h1, le_refl _⟩
  refine ⟨sel, sel', h1, g1, ?_⟩
  have hsum : ∀ {M : Type} [AddCommMonoid M] (g : Nat × Nat → M), ∑ p ∈ sel.toFinset, g p = (sel.map g).sum := by
    intro M _ g
    rw [List.sum_toFinset g h2]
  rw [← hsum]
  refine g5 sel.toFinset (fun p hp => h3 p (List.mem_toFinset.1 hp)) ?_ ?_
  · rw [hsum]
    exact h4.trans (by exact_mod_cast hbb)
  · intro j hj
    have hone : ∀ p ∈ sel.toFinset, (1 : Int) ≤ costs.getD p.2 0 := by
      intro p hp
      have hp2 : p.2 < costs.length := by rw [hlen]; exact (h3 p (List.mem_toFinset.1 hp)).2.1
      rw [List.getD_eq_getElem _ _ hp2]
      exact hc _ (List.getElem_mem hp2)
    have h5 : ((sel.toFinset.filter (fun p => p.2 = j)).card : Int) ≤ budget := by
      calc ((sel.toFinset.filter (fun p => p.2 = j)).card : Int) ≤ (sel.toFinset.card : Int) := by exact_mod_cast Finset.card_filter_le _ _
        _ = ∑ p ∈ sel.toFinset, (1 : Int) := by simp
        _ ≤ ∑ p ∈ sel.toFinset, costs.getD p.2 0 := Finset.sum_le_sum hone
        _ ≤ budget := by rw [hsum]; exact h4
    omega

end

/-! ## Coreset -/
section
open Select
variable {α K : Type} [DecidableEq α] [Field K] [LinearOrder K] [IsStrictOrderedRing K]

/-- **C152**: a larger batch of the coreset strategy covers the pool at least as well. -/
theorem C152_coreset {D : α → α → K} (hD : Spec.PseudoMetric D) {train l u : List α} {o : Core K} {C : List α} (h : CoreHist D train o C) (hC : ∀ c ∈ C, c ∈ l)
    {a b : Nat} (hs : Situation train l u (a + b)) {cmp : α → Bool} (hcmp : ∀ x ∈ train, cmp x = true) :
    ∃ r r', (Core.select D cmp train o l u a).2 = .ok r ∧ (Core.select D cmp train o l u (a + b)).2 = .ok r' ∧
      ∀ ρ, Spec.Covers D train (l ++ r) ρ → Spec.Covers D train (l ++ r') ρ := by
  obtain ⟨o', r₁, r₂, h1, -, h3, -⟩ := Batches.C121_coreset hD h hC hs hcmp
  refine ⟨r₁, r₁ ++ r₂, by rw [h1], h3, ?_⟩
  intro ρ hcov x hx
  obtain ⟨c, hc, hd⟩ := hcov x hx
  refine ⟨c, ?_, hd⟩
  simp only [List.mem_append] at hc ⊢
  tauto

end

/-! ## Matrix completion -/
section
open Features
variable {K : Type} [Field K] [LinearOrder K] [IsStrictOrderedRing K]

theorem innerLoop_le {μ : Type} (it : Nat → μ × K) : ∀ (n k : Nat) (prev : K) (best : K × μ), (innerLoop it n k prev best).1.1 ≤ best.1
  | 0, _, _, _ => le_refl _
  | n + 1, k, prev, best => by
    have hb : (if (it k).2 < best.1 then ((it k).2, (it k).1) else best).1 ≤ best.1 := by
      split
      · exact le_of_lt ‹_›
      · exact le_refl _
    simp only [innerLoop]
    split
    · exact hb
    · exact le_trans (innerLoop_le it n _ _ _) hb

theorem innerLoop_mono {μ : Type} (it : Nat → μ × K) : ∀ (n m k : Nat) (prev : K) (best : K × μ),
    (innerLoop it (n + m) k prev best).1.1 ≤ (innerLoop it n k prev best).1.1
  | 0, m, k, prev, best => innerLoop_le it _ k prev best
  | n + 1, m, k, prev, best => by
    rw [Nat.add_right_comm]
    simp only [innerLoop]
    split
    · exact le_refl _
    · exact innerLoop_mono it n m _ _ _

/-- **C152**: more inner steps of AFASMC: the objective of the completion found is not larger. -/
theorem C152_completion {μ : Type} (it : Nat → μ × K) {n n' : Nat} (h0 : 0 < n) (h : n ≤ n') :
    ∃ best k best' k', inner it n = some (best, k) ∧ inner it n' = some (best', k') ∧ best'.1 ≤ best.1 := by
  obtain ⟨m, rfl⟩ := Nat.exists_eq_add_of_le h
  cases n with
  | zero => omega
  | succ n =>
    have := innerLoop_mono it n m 1 (it 0).2 ((it 0).2, (it 0).1)
    rw [Nat.add_right_comm]
    exact ⟨_, _, _, _, rfl, rfl, this⟩

end

open Features in
/-- Three steps find a better completion than two. -/
example : inner (fun k => (k, ((1 : ℚ) / (k + 1)))) 2 = some ((1 / 2, 1), 1) ∧ inner (fun k => (k, ((1 : ℚ) / (k + 1)))) 3 = some ((1 / 3, 2), 2) := by decide +kernel

/-! ## A larger pool -/
section
open Select LeaveOut
variable {α K : Type} [Field K] [LinearOrder K]

theorem best_count {score : α → K} {u u' : List α} (hu : u.Nodup) (hsub : ∀ x ∈ u, x ∈ u') {k : Nat} {S S' : List α}
    (hS : Best (fun x y => score x ≤ score y) u k S) (hS' : Best (fun x y => score x ≤ score y) u' k S') (t : K) :
    S.countP (fun x => decide (t ≤ score x)) ≤ S'.countP (fun x => decide (t ≤ score x)) := by
  classical
  obtain ⟨a1, a2, a3, a4⟩ := hS
  obtain ⟨b1, b2, b3, b4⟩ := hS'
  by_cases hex : ∃ x ∈ u', x ∉ S' ∧ t ≤ score x
  · -- something as good was left out: everything selected is as good
    obtain ⟨x, hx, hxS, hxt⟩ := hex
    have hall : S'.countP (fun x => decide (t ≤ score x)) = S'.length := by
      rw [List.countP_eq_length]
      intro y hy
      exact decide_eq_true (le_trans hxt (b4 x hx hxS y hy))
    rw [hall]
    have h1 := length_le_of_sub hu hsub
    have h2 := List.countP_le_length (p := fun x => decide (t ≤ score x)) (l := S)
    omega
  · push Not at hex
    rw [List.countP_eq_length_filter, List.countP_eq_length_filter]
    refine length_le_of_sub (a1.filter _) ?_
    intro x hx
    rw [List.mem_filter] at hx ⊢
    refine ⟨?_, hx.2⟩
    by_contra hn
    exact absurd (of_decide_eq_true hx.2) (not_le.2 (hex x (hsub x (a2 x hx.1)) hn))

/-- From a larger pool as many examples with a score of at least `t` are selected, for every `t`. -/
def MoreChoice (score : α → K) (sel : Coll α → (List K → List Nat) → Except PyErr (List α)) : Prop :=
  ∀ u u' : Coll α, u.items.Nodup → u'.items.Nodup → (∀ x ∈ u.items, x ∈ u'.items) → ∀ S S', Spec.CanSelect (sel u) S → Spec.CanSelect (sel u') S' →
    ∀ t, S.countP (fun x => decide (t ≤ score x)) ≤ S'.countP (fun x => decide (t ≤ score x))

theorem moreChoice_of {score : α → K} {sel : Coll α → (List K → List Nat) → Except PyErr (List α)} {k : Nat}
    (h : ∀ u : Coll α, u.items.Nodup → ∀ S, Spec.CanSelect (sel u) S → Best (fun x y => score x ≤ score y) u.items k S) : MoreChoice score sel :=
  fun _ _ hu hu' hsub _ _ hS hS' t => best_count hu hsub (h _ hu _ hS) (h _ hu' _ hS') t

/-- **C152**: a larger pool for uncertainty sampling, with the measures of uncertainty of a predicted distribution. -/
theorem C152_pool (log : K → K) {c : Nat} (hc : c ≠ 1) (g : α → List K) {k : Int} (hk : 0 < k) :
    MoreChoice (fun x => leastScore c (g x)) (fun u a => uncertainty log a .leastConfident u (.mat c (u.items.map g)) k) ∧
    MoreChoice (fun x => marginScore c (g x)) (fun u a => uncertainty log a .margin u (.mat c (u.items.map g)) k) ∧
    MoreChoice (fun x => entropyScore log (clip (g x))) (fun u a => uncertainty log a .entropy u (.mat c (u.items.map g)) k) := by
  refine ⟨moreChoice_of (k := k.toNat) fun u hu S hS => ?_, moreChoice_of (k := k.toNat) fun u hu S hS => ?_, moreChoice_of (k := k.toNat) fun u hu S hS => ?_⟩ <;>
  · rw [← largest_iff hu _ hk]
    simp only [uncertainty, if_neg hc, List.map_map] at hS
    exact hS

/-- **C152**: a larger pool for query by committee. -/
theorem C152_pool_committee (log : K → K) {members : List (α → Int)} (hm : 2 ≤ members.length) {k : Int} (hk : 0 < k) :
    MoreChoice (fun x => voteEntropy log (members.map (fun h => h x))) (fun u a => qbc log a u (members.map (fun h => u.items.map h)) k) := by
  refine moreChoice_of (k := k.toNat) fun u hu S hS => ?_
  rw [← largest_iff hu (fun x => voteEntropy log (members.map (fun h => h x))) hk]
  have e : ∀ a, qbc log a u (members.map (fun h => u.items.map h)) k = byLargest a u (u.items.map (fun x => voteEntropy log (members.map (fun h => h x)))) k := by
    intro a
    unfold qbc byLargest
    rw [List.length_map, if_neg (by omega)]
    have hl : ((members.map (fun h => u.items.map h)).headD []).length = u.items.length := by
      cases members with
      | nil => simp at hm
      | cons m ms => simp
    rw [hl, range_map u.items _ (fun x => voteEntropy log (members.map (fun h => h x))) (fun i x hx => by rw [members_at _ _ _ hx])]
  simp only [e] at hS
  exact hS

/-- **C152**: a larger pool for sampling by the distance to the boundary: at least as many examples with a distance of at most `t`, for every `t`. -/
theorem C152_pool_distance [IsStrictOrderedRing K] (log : K → K) (g : α → K) {k : Int} (hk : 0 < k) {u u' : Coll α} (hu : u.items.Nodup) (hu' : u'.items.Nodup)
    (hsub : ∀ x ∈ u.items, x ∈ u'.items) {S S' : List α} (hS : Spec.CanSelect (fun a => uncertainty log a .distance u (.vec (u.items.map g)) k) S)
    (hS' : Spec.CanSelect (fun a => uncertainty log a .distance u' (.vec (u'.items.map g)) k) S') (t : K) :
    S.countP (fun x => decide (|g x| ≤ t)) ≤ S'.countP (fun x => decide (|g x| ≤ t)) := by
  have key : ∀ {u : Coll α} {S : List α}, u.items.Nodup → Spec.CanSelect (fun a => uncertainty log a .distance u (.vec (u.items.map g)) k) S →
      Best (fun x y => -|g x| ≤ -|g y|) u.items k.toNat S := by
    intro u S hu hS
    simp only [uncertainty, List.map_map] at hS
    obtain ⟨h1, h2, h3, h4⟩ := (smallest_iff hu (fun x => |g x|) hk S).1 hS
    exact ⟨h1, h2, h3, fun x hx hn y hy => neg_le_neg (h4 x hx hn y hy)⟩
  have := best_count hu hsub (key hu hS) (key hu' hS') (-t)
  simpa only [neg_le_neg_iff] using this

/-- **C152**: a larger pool for query by committee with the divergence from the consensus. -/
theorem C152_pool_divergence (log : K → K) {labels : Nat} {members : List (α → List K)} (hm : 2 ≤ members.length) {k : Int} (hk : 0 < k) :
    MoreChoice (fun x => klScore log labels (members.map (fun h => h x))) (fun u a => qbcKL log a u u.items.length labels (members.map (fun h => u.items.map h)) k) := by
  refine moreChoice_of (k := k.toNat) fun u hu S hS => ?_
  rw [← largest_iff hu (fun x => klScore log labels (members.map (fun h => h x))) hk]
  have e : ∀ a, qbcKL log a u u.items.length labels (members.map (fun h => u.items.map h)) k =
      byLargest a u (u.items.map (fun x => klScore log labels (members.map (fun h => h x)))) k := by
    intro a
    unfold qbcKL byLargest
    rw [List.length_map, if_neg (by omega), range_map u.items _ (fun x => klScore log labels (members.map (fun h => h x))) (fun i x hx => by rw [members_at _ _ _ hx])]
  simp only [e] at hS
  exact hS

/-- **C152**: a larger pool for query by committee whose members predict several labels, when both calls return. -/
theorem C152_pool_label_sets (log : K → K) {labels : Nat} {members : List (α → List Nat)} (hm : 2 ≤ members.length) {k : Int} (hk : 0 < k) :
    MoreChoice (fun x => voteEntropyMat log labels (members.map (fun h => h x))) (fun u a => qbcMat log a u u.items.length labels (members.map (fun h => u.items.map h)) k) := by
  refine moreChoice_of (k := k.toNat) fun u hu S hS => ?_
  rw [← largest_iff hu (fun x => voteEntropyMat log labels (members.map (fun h => h x))) hk]
  obtain ⟨a, r, ha, hr, hp⟩ := hS
  refine ⟨a, r, ha, ?_, hp⟩
  beta_reduce at hr ⊢
  unfold qbcMat at hr
  rw [List.length_map, if_neg (by omega), range_map u.items _ (fun x => voteEntropyMat log labels (members.map (fun h => h x))) (fun i x hx => by rw [members_at _ _ _ hx])] at hr
  unfold byLargest
  cases hz : zeroOne (members.map (fun h => u.items.map h)) with
  | true => rw [hz] at hr; exact hr
  | false =>
    rw [hz] at hr
    simp only [frame, Bool.not_false, if_true] at hr ⊢
    split at hr
    · exact absurd hr (by simp)
    · split at hr
      · rw [if_neg ‹_›, if_pos ‹_›]; exact hr
      · exact absurd hr (by simp)

/-- Of two examples the second is more uncertain: from the pool with both it is selected. -/
example : ∃ g : Nat → List ℚ, ∃ u u' : Coll Nat, u.items = [0] ∧ u'.items = [0, 1] ∧
    Spec.CanSelect (fun a => uncertainty id a .leastConfident u (.mat 2 (u.items.map g)) 1) [0] ∧
    Spec.CanSelect (fun a => uncertainty id a .leastConfident u' (.mat 2 (u'.items.map g)) 1) [1] ∧
    leastScore 2 (g 0) < leastScore 2 (g 1) := by
  let g : Nat → List ℚ := fun i => if i = 0 then [9 / 10, 1 / 10] else [1 / 2, 1 / 2]
  have key : ∀ (u : Coll Nat), u.items.Nodup → ∀ S, Best (fun x y => leastScore 2 (g x) ≤ leastScore 2 (g y)) u.items 1 S →
      Spec.CanSelect (fun a => uncertainty id a .leastConfident u (.mat 2 (u.items.map g)) 1) S := by
    intro u hu S hS
    have := (largest_iff hu (fun x => leastScore 2 (g x)) (k := 1) (by norm_num) S).2 hS
    simp only [uncertainty, if_neg (show (2 : Nat) ≠ 1 by norm_num), List.map_map]
    exact this
  have h01 : leastScore 2 (g 0) < leastScore 2 (g 1) := by decide +kernel
  refine ⟨g, .list [0], .list [0, 1], rfl, rfl, key _ (by simp [Coll.items]) _ ⟨by simp, by simp [Coll.items], by simp [Coll.items], by simp [Coll.items]⟩, key _ (by simp [Coll.items]) _ ⟨by simp, by simp [Coll.items], by simp [Coll.items], ?_⟩, h01⟩
  intro x hx hx1 y hy
  obtain rfl : y = 1 := by simpa using hy
  obtain rfl : x = 0 := by
    simp only [Coll.items, List.mem_cons, List.not_mem_nil, or_false] at hx hx1
    tauto
  exact h01.le

end
end Alipy.MoreIsBetter

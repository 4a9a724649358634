import Verif.Props.Knapsack
/-!
# C49: no selection is out of reach of POSS

What has been generated is taken from the run in `C49_best_generated_partial`. Here it is tied to the random choices: whatever the population is, the random bits of the next
round can turn any parent into any selection.
-/
namespace Alipy.CostSensitive
variable {K : Type} [Field K] [LinearOrder K] [IsStrictOrderedRing K]

theorem mutate_back : ∀ {p s : List Bool}, p.length = s.length → mutate p (List.zipWith (fun a b => a != b) p s) = s
  | [], [], _ => rfl
  | [], _ :: _, h => by simp at h
  | _ :: _, [], h => by simp at h
  | a :: p, b :: s, h => by
    simp only [List.length_cons, Nat.add_right_cancel_iff] at h
    have := mutate_back h
    simp only [mutate, List.zipWith_cons_cons] at this ⊢
    rw [this]
    cases a <;> cases b <;> rfl

theorem generated_append {vals costs : List K} {budget : K} (d : Nat × List Bool) : ∀ (draws : List (Nat × List Bool)) (pop : List (Member K)),
    offspring (draws.foldl (possStep vals costs budget) pop) d ∈ generated vals costs budget pop (draws ++ [d])
  | [], pop => by simp [generated]
  | e :: draws, pop => by
    rw [List.cons_append, generated, List.foldl_cons]
    exact List.mem_cons_of_mem _ (generated_append d draws _)

theorem step_len {vals costs : List K} {budget : K} {n : Nat} {pop : List (Member K)} (hne : pop ≠ []) (h : ∀ m ∈ pop, m.sel.length = n) (d : Nat × List Bool) (hd : d.2.length = n) :
    possStep vals costs budget pop d ≠ [] ∧ ∀ m ∈ possStep vals costs budget pop d, m.sel.length = n := by
  have hol : (offspring pop d).length = n := by
    unfold offspring
    have hlt : d.1 % pop.length < pop.length := Nat.mod_lt _ (List.length_pos_iff.2 hne)
    rw [List.getElem?_eq_getElem hlt]
    simp only [mutate, List.length_zipWith, hd, h _ (List.getElem_mem hlt), min_self]
  unfold possStep
  simp only
  split_ifs
  · exact ⟨hne, h⟩
  · refine ⟨by simp, fun m hm => ?_⟩
    rcases List.mem_append.1 hm with hm | hm
    · exact h m (List.mem_of_mem_filter hm)
    · rw [List.mem_singleton.1 hm]
      exact hol

theorem run_len {vals costs : List K} {budget : K} {n : Nat} : ∀ {draws : List (Nat × List Bool)} {pop : List (Member K)}, pop ≠ [] → (∀ m ∈ pop, m.sel.length = n) →
    (∀ d ∈ draws, d.2.length = n) → draws.foldl (possStep vals costs budget) pop ≠ [] ∧ ∀ m ∈ draws.foldl (possStep vals costs budget) pop, m.sel.length = n
  | [], _, hne, h, _ => ⟨hne, h⟩
  | d :: draws, pop, hne, h, hd => by
    obtain ⟨h1, h2⟩ := step_len (vals := vals) (costs := costs) (budget := budget) hne h d (hd d (by simp))
    exact run_len (draws := draws) (pop := possStep vals costs budget pop d) h1 h2 (fun e he => hd e (by simp [he]))

/-- **C49**, the random choices: after any number of rounds, and whatever parent is drawn next, there are bits for which the result is at least as good as any given selection
of positive cost within the budget. So the search is never stuck; with the best selection in the place of `sel` the optimum is returned. -/
theorem C49_never_stuck {vals costs : List K} {budget : K} (hl : vals.length = costs.length) (hc : ∀ c ∈ costs, 0 ≤ c) (hb : 0 ≤ budget)
    {draws : List (Nat × List Bool)} (hd : ∀ d ∈ draws, d.2.length = vals.length) (parent : Nat) {sel : List Bool} (hs : sel.length = vals.length)
    (hpos : 0 < Spec.sumOf sel costs) (hin : Spec.sumOf sel costs ≤ budget) :
    ∃ bits : List Bool, bits.length = vals.length ∧ ∃ best, poss vals costs budget (draws ++ [(parent, bits)]) = .ok (((Spec.sumOf best vals : K) : WithTop K), best) ∧
      0 < Spec.sumOf best costs ∧ Spec.sumOf best costs ≤ budget ∧ Spec.sumOf best vals ≤ Spec.sumOf sel vals := by
  obtain ⟨hne, hlen⟩ := run_len (vals := vals) (costs := costs) (budget := budget) (n := vals.length) (pop := possInit vals.length) (by simp [possInit]) (by simp [possInit]) hd
  generalize hp : draws.foldl (possStep vals costs budget) (possInit vals.length) = pop at hne hlen
  have hlt : parent % pop.length < pop.length := Nat.mod_lt _ (List.length_pos_iff.2 hne)
  have hpl := hlen _ (List.getElem_mem hlt)
  set bits := List.zipWith (fun a b => a != b) (pop[parent % pop.length]).sel sel with hbits
  have hbl : bits.length = vals.length := by simp [hbits, hpl, hs]
  have hoff : offspring pop (parent, bits) = sel := by
    unfold offspring
    rw [List.getElem?_eq_getElem hlt]
    exact mutate_back (hpl.trans hs.symm)
  have hgen := generated_append (vals := vals) (costs := costs) (budget := budget) (parent, bits) draws (possInit vals.length)
  rw [hp, hoff] at hgen
  obtain ⟨v, best, h1, -, h3, h4, h5⟩ := C49_best_generated_partial hl hc hb (draws := draws ++ [(parent, bits)])
    (by intro d hd'; rcases List.mem_append.1 hd' with h | h
        · exact hd d h
        · rw [List.mem_singleton.1 h]; exact hbl)
  have hv := h5 sel hgen hpos hin
  rcases h4 with ⟨rfl, h⟩ | ⟨rfl, -⟩
  · exact ⟨bits, hbl, best, h1, h, h3, WithTop.coe_le_coe.1 hv⟩
  · simp at hv

/-- Three items, two rounds so far, budget 5: the best selection is items 0 and 1. -/
example : Spec.sumOf [true, true, false] [2, 3, (4 : ℚ)] = 5 ∧ poss [-3, -4, (-5 : ℚ)] [2, 3, 4] 5 [(0, [false, false, true]), (1, [true, false, true])] = .ok (((-5 : ℚ) : WithTop ℚ), [false, false, true]) := by
  constructor <;> decide +kernel

end Alipy.CostSensitive

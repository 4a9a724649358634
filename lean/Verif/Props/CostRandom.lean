import Verif.Model.CostRandom
import Verif.Spec.Knapsack
import Mathlib.Algebra.Order.Field.Basic
import Mathlib.Tactic.Linarith
import Mathlib.Data.List.Perm.Basic
import Mathlib.Data.Rat.Defs

/-! # Properties of the random selection within a budget -/
namespace Alipy.CostSensitive
set_option linter.unusedSectionVars false
variable {K : Type} [Field K] [LinearOrder K] [IsStrictOrderedRing K]

/-- The total cost of pairs. -/
def costOf (costs : List K) (ps : List (Int × Nat)) : K := (ps.map (fun p => costs.getD p.2 0)).sum

theorem costOf_perm {costs : List K} {a b : List (Int × Nat)} (h : a.Perm b) : costOf costs a = costOf costs b :=
  (h.map _).sum_eq

theorem costOf_append (costs : List K) (a b : List (Int × Nat)) : costOf costs (a ++ b) = costOf costs a + costOf costs b := by
  simp [costOf]

theorem perm_eraseIdx {α : Type} {l : List α} {i : Nat} {q : α} (h : l[i]? = some q) : l.Perm (q :: l.eraseIdx i) := by
  obtain ⟨hi, he⟩ := List.getElem?_eq_some_iff.1 h
  rw [← he]
  exact (List.getElem_cons_eraseIdx_perm hi).symm

/-- The loop always ends within one step more than there are pairs, and this is what it returns. -/
theorem randomLoop_spec {costs : List K} {budget : K} {draw : Nat → Nat} : ∀ (fuel k : Nat) (pool : List (Int × Nat)) (acc : List (Int × Nat)),
    pool.length < fuel → (∀ p ∈ pool, p.2 < costs.length) → costOf costs acc ≤ budget →
    (∃ (r rest : List (Int × Nat)) (q : Int × Nat), randomLoop costs budget draw fuel k pool (costOf costs acc) acc = some (.ok r) ∧ (r ++ q :: rest).Perm (acc ++ pool) ∧
      costOf costs r ≤ budget ∧ budget < costOf costs (r ++ [q]) ∧ acc <+: r) ∨
    (randomLoop costs budget draw fuel k pool (costOf costs acc) acc = some (.error .valueError) ∧ costOf costs (acc ++ pool) ≤ budget)
  | 0, _, _, _, h, _, _ => absurd h (Nat.not_lt_zero _)
  | fuel + 1, k, [], acc, _, _, hb => by
    right
    exact ⟨rfl, by simpa using hb⟩
  | fuel + 1, k, p :: pool, acc, hf, hc, hb => by
    have hi : draw k % (p :: pool).length < (p :: pool).length := Nat.mod_lt _ (by simp)
    have hq := List.getElem?_eq_getElem hi
    generalize (p :: pool)[draw k % (p :: pool).length] = q at hq
    have hperm := perm_eraseIdx hq
    have hqc : q.2 < costs.length := hc q (List.mem_of_getElem? hq)
    have hcq : costs[q.2]? = some (costs.getD q.2 0) := by
      rw [List.getD_eq_getElem?_getD, List.getElem?_eq_getElem hqc]; rfl
    have hnext : costOf costs acc + costs.getD q.2 0 = costOf costs (acc ++ [q]) := by
      rw [costOf_append]; simp [costOf]
    rw [randomLoop]
    simp only [hq, hcq, hnext]
    by_cases hlt : budget < costOf costs (acc ++ [q])
    · left
      rw [if_pos hlt]
      exact ⟨acc, (p :: pool).eraseIdx (draw k % (p :: pool).length), q, rfl, (hperm.symm.append_left acc), hb, hlt, List.prefix_refl _⟩
    · rw [if_neg hlt]
      have hlen : ((p :: pool).eraseIdx (draw k % (p :: pool).length)).length < fuel := by
        have := hperm.length_eq
        simp only [List.length_cons] at this hf ⊢
        omega
      have hacc : ((acc ++ [q]) ++ (p :: pool).eraseIdx (draw k % (p :: pool).length)).Perm (acc ++ (p :: pool)) := by
        rw [List.append_assoc]; exact hperm.symm.append_left acc
      rcases randomLoop_spec fuel (k + 1) ((p :: pool).eraseIdx (draw k % (p :: pool).length)) (acc ++ [q]) hlen
        (fun x hx => hc x (List.mem_of_mem_eraseIdx hx)) (not_lt.1 hlt) with ⟨r, rest, q', h1, h2, h3, h4, h5⟩ | ⟨h1, h2⟩
      · left
        exact ⟨r, rest, q', h1, h2.trans hacc, h3, h4, (List.prefix_append acc [q]).trans h5⟩
      · right
        exact ⟨h1, by rw [← costOf_perm hacc]; exact h2⟩

/-- If the pool costs more than the budget, selection returns distinct pairs of the pool which cost at most the budget, and one more
pair of the pool would exceed it; all this for every random choice. -/
theorem C50_within_budget_partial {nClasses : Nat} {u : List (Int × Nat)} (hu : u.Nodup) (hn : ∀ p ∈ u, p.2 < nClasses) {costs : List K}
    (hcost : costs.length = nClasses) {budget : K} (hb : 0 ≤ budget) (hex : budget < (u.map (fun p => costs.getD p.2 0)).sum) (draw : Nat → Nat) :
    ∃ (r : List (Int × Nat)) (q : Int × Nat), randomSelect (u.length + 1) nClasses u (some costs) budget draw = some (.ok r) ∧
      r.Nodup ∧ (∀ p ∈ r, p ∈ u) ∧ (r.map (fun p => costs.getD p.2 0)).sum ≤ budget ∧
      q ∈ u ∧ q ∉ r ∧ budget < (r.map (fun p => costs.getD p.2 0)).sum + costs.getD q.2 0 := by
  have h0 : costOf costs [] ≤ budget := by simpa [costOf] using hb
  have hsel : ∀ f, randomSelect f nClasses u (some costs) budget draw = randomLoop costs budget draw f 0 u (costOf costs []) [] := by
    intro f
    simp [randomSelect, labelCosts, hcost, costOf]
  rcases randomLoop_spec (draw := draw) (u.length + 1) 0 u [] (by omega) (by rw [hcost]; exact hn) h0 with ⟨r, rest, q, h1, h2, h3, h4, _⟩ | ⟨h1, h2⟩
  · rw [List.nil_append] at h2
    have hnd : (r ++ q :: rest).Nodup := h2.nodup_iff.2 hu
    refine ⟨r, q, by rw [hsel]; exact h1, (List.nodup_append.1 hnd).1, ?_, h3, h2.subset (by simp), ?_, ?_⟩
    · intro p hp; exact h2.subset (by simp [hp])
    · intro hq; exact (List.nodup_append.1 hnd).2.2 q hq q (by simp) rfl
    · rw [costOf_append] at h4
      simpa [costOf] using h4
  · rw [List.nil_append] at h2
    exact absurd hex (not_lt.2 h2)

example : randomSelect 4 3 [(7, 0), (7, 1), (9, 2)] (some [1, 2, 4]) (4 : ℚ) (fun k => k + 1) = some (.ok [(7, 1), (7, 0)]) := by decide +kernel

/-- Without costs every pair costs 1: exactly `budget` pairs are returned if the pool has more. -/
theorem C50_unit_cost {nClasses : Nat} {u : List (Int × Nat)} (hu : u.Nodup) (hn : ∀ p ∈ u, p.2 < nClasses) {b : Nat} (hb : b < u.length)
    (draw : Nat → Nat) : ∃ r, randomSelect (u.length + 1) nClasses u none (b : K) draw = some (.ok r) ∧ r.Nodup ∧ (∀ p ∈ r, p ∈ u) ∧ r.length = b := by
  have hone : ∀ (l : List (Int × Nat)), (∀ p ∈ l, p.2 < nClasses) →
      (l.map (fun p => (List.replicate nClasses (1 : K)).getD p.2 0)).sum = (l.length : K) := by
    intro l
    induction l with
    | nil => simp
    | cons p r ih =>
      intro h
      have hp := h p (by simp)
      rw [List.map_cons, List.sum_cons, ih (fun x hx => h x (by simp [hx]))]
      simp [List.getD_eq_getElem?_getD, List.getElem?_replicate, hp]
      ring
  have hsel : randomSelect (u.length + 1) nClasses u none (b : K) draw =
      randomSelect (u.length + 1) nClasses u (some (List.replicate nClasses 1)) (b : K) draw := by
    simp [randomSelect, labelCosts]
  obtain ⟨r, q, h1, h2, h3, h4, h5, h6, h7⟩ := C50_within_budget_partial (K := K) hu hn (costs := List.replicate nClasses 1) (by simp)
    (budget := b) (Nat.cast_nonneg b) (by rw [hone u hn]; exact_mod_cast hb) draw
  refine ⟨r, by rw [hsel]; exact h1, h2, h3, ?_⟩
  rw [hone r (fun p hp => hn p (h3 p hp))] at h4 h7
  have hq : (List.replicate nClasses (1 : K)).getD q.2 0 = 1 := by
    simp [List.getD_eq_getElem?_getD, List.getElem?_replicate, hn q h5]
  rw [hq] at h7
  have h4' : r.length ≤ b := by exact_mod_cast h4
  have h7' : b < r.length + 1 := by exact_mod_cast h7
  omega

/-- If the whole pool fits into the budget, the call never returns a selection: it raises ValueError, for all random choices. -/
theorem C50_exhausted_violation {nClasses : Nat} {u : List (Int × Nat)} (hn : ∀ p ∈ u, p.2 < nClasses) {costs : List K}
    (hcost : costs.length = nClasses) (h0 : ∀ c ∈ costs, 0 ≤ c) {budget : K} (hex : (u.map (fun p => costs.getD p.2 0)).sum ≤ budget) (draw : Nat → Nat) :
    randomSelect (u.length + 1) nClasses u (some costs) budget draw = some (.error .valueError) := by
  have hnn : ∀ (l : List (Int × Nat)), 0 ≤ costOf costs l := by
    intro l
    induction l with
    | nil => simp [costOf]
    | cons p r ih =>
      have hp : 0 ≤ costs.getD p.2 0 := by
        by_cases hlt : p.2 < costs.length
        · rw [List.getD_eq_getElem?_getD, List.getElem?_eq_getElem hlt]; exact h0 _ (List.getElem_mem hlt)
        · rw [List.getD_eq_getElem?_getD, List.getElem?_eq_none (by omega)]; simp
      simp only [costOf, List.map_cons, List.sum_cons] at ih ⊢
      exact add_nonneg hp ih
  have hb : costOf costs [] ≤ budget := le_trans (by simpa [costOf] using hnn u) hex
  have hsel : randomSelect (u.length + 1) nClasses u (some costs) budget draw = randomLoop costs budget draw (u.length + 1) 0 u (costOf costs []) [] := by
    simp [randomSelect, labelCosts, hcost, costOf]
  rw [hsel]
  rcases randomLoop_spec (draw := draw) (u.length + 1) 0 u [] (by omega) (by rw [hcost]; exact hn) hb with ⟨r, rest, q, h1, h2, h3, h4, _⟩ | ⟨h1, h2⟩
  · exfalso
    rw [List.nil_append] at h2
    have : costOf costs (r ++ q :: rest) = costOf costs (r ++ [q]) + costOf costs rest := by
      rw [← costOf_append]; simp
    rw [costOf_perm h2] at this
    have h5 := hnn rest
    have : costOf costs u ≤ budget := hex
    linarith
  · exact h1

example : randomSelect 3 2 [(7, 0), (7, 1)] (none : Option (List ℚ)) 40 (fun _ => 0) = some (.error .valueError) := by decide +kernel

/-- A wrong number of costs is refused. -/
theorem C50_cost_length (fuel nClasses : Nat) (u : List (Int × Nat)) (costs : List K) (h : costs.length ≠ nClasses) (budget : K) (draw : Nat → Nat) :
    randomSelect fuel nClasses u (some costs) budget draw = some (.error .assertionError) := by
  simp [randomSelect, labelCosts, h]

end Alipy.CostSensitive

import Verif.Props.RepositoryMatrix
/-! # C51: cost and query accounting of the repositories -/
set_option linter.unusedSectionVars false
namespace Alipy
open Spec

/-- The sum of optional costs, an absent one counting 0. -/
def costSum (cs : List (Option ℚ)) : ℚ := (cs.map (fun c => c.getD 0)).sum

theorem repoRows_costs {κ β χ : Type} (examples : Option (List χ)) : ∀ (labels : List β) (indexes : List κ) (cs : List ℚ),
    labels.length = cs.length → indexes.length = cs.length →
    costSum ((repoRows labels indexes (some cs) examples).map (fun t => t.2.2.1)) = cs.sum := by
  intro labels
  induction labels generalizing examples with
  | nil =>
    intro indexes cs h1 h2
    have : cs = [] := List.length_eq_zero_iff.1 (by simpa using h1.symm)
    subst this
    cases indexes <;> simp [repoRows, costSum]
  | cons b bs ih =>
    intro indexes cs h1 h2
    cases cs with
    | nil => simp at h1
    | cons c cs =>
      cases indexes with
      | nil => simp at h2
      | cons k ks =>
        have := ih (examples.map List.tail) ks cs (by simpa using h1) (by simpa using h2)
        simp only [costSum] at this
        simp only [repoRows, costSum, List.map_cons, List.sum_cons, Option.map_some, Option.map_none, List.tail_cons, this]
        simp

theorem repoRows_nocost {κ β χ : Type} (examples : Option (List χ)) : ∀ (labels : List β) (indexes : List κ),
    costSum ((repoRows labels indexes none examples).map (fun t => t.2.2.1)) = 0 := by
  intro labels
  induction labels generalizing examples with
  | nil => intro indexes; cases indexes <;> simp [repoRows, costSum]
  | cons b bs ih =>
    intro indexes
    cases indexes with
    | nil => simp [repoRows, costSum]
    | cons k ks =>
      have := ih (examples.map List.tail) ks
      simp only [costSum] at this
      simp only [repoRows, costSum, List.map_cons, List.sum_cons, Option.map_some, Option.map_none, List.tail_cons, this]
      simp

namespace ERepo
variable {κ β χ : Type} [DecidableEq κ] [DecidableEq χ]

/-- Any operation of an `ElementRepository`, with the cost it was given and whether it is an `update_query`. -/
inductive Step : ERepo κ β χ → ERepo κ β χ → ℚ → Nat → Prop
  | add {o o' : ERepo κ β χ} (k : κ) (b : β) (c : Option ℚ) (x : Option χ) : o.add k b c x = (o', none) → Step o o' (c.getD 0) 0
  | addFails {o o' : ERepo κ β χ} (k : κ) (b : β) (c : Option ℚ) (x : Option χ) (e : PyErr) : o.add k b c x = (o', some e) →
      Step o o' 0 0
  | update {o o' : ERepo κ β χ} (indexes : Arg κ) (labels : Arg β) (cost : Option (Arg ℚ)) (examples : Option (Arg χ)) :
      o.updateQuery indexes labels cost examples = (o', none) → Step o o' ((cost.map Arg.toList).getD []).sum 1
  | updateFails {o o' : ERepo κ β χ} (indexes : Arg κ) (labels : Arg β) (cost : Option (Arg ℚ)) (examples : Option (Arg χ)) (e : PyErr) :
      o.updateQuery indexes labels cost examples = (o', some e) → Step o o' 0 0
  | discard {o o' : ERepo κ β χ} (k : Option κ) (x : Option χ) (res : Option PyErr) : o.discard k x = (o', res) → Step o o' 0 0

theorem addMany_cost : ∀ (ts : List (κ × β × Option ℚ × Option χ)) (o o' : ERepo κ β χ), o.addMany ts = (o', none) →
    o'.cost = o.cost + costSum (ts.map (fun t => t.2.2.1)) ∧ o'.costArr.sum = o.costArr.sum + costSum (ts.map (fun t => t.2.2.1)) ∧
    o'.numQueries = o.numQueries ∧ o'.history = o.history := by
  intro ts
  induction ts with
  | nil => intro o o' h; simp only [ERepo.addMany] at h; cases h; simp [costSum]
  | cons t r ih =>
    intro o o' h
    obtain ⟨k, b, c, x⟩ := t
    simp only [ERepo.addMany] at h
    split at h
    · rename_i o1 h1
      have hadd : o1.cost = o.cost + c.getD 0 ∧ o1.costArr.sum = o.costArr.sum + c.getD 0 ∧ o1.numQueries = o.numQueries ∧
          o1.history = o.history := by
        unfold ERepo.add at h1
        split at h1
        · cases x with
          | none => cases h1
          | some x => cases h1; cases c <;> simp [addRest]
        · cases h1; cases c <;> simp [addRest]
      obtain ⟨i1, i2, i3, i4⟩ := ih o1 o' h
      refine ⟨?_, ?_, i3.trans hadd.2.2.1, i4.trans hadd.2.2.2⟩
      · rw [i1, hadd.1]; simp [costSum, add_assoc]
      · rw [i2, hadd.2.1]; simp [costSum, add_assoc]
    · cases h

theorem add_cost {o o' : ERepo κ β χ} {k : κ} {b : β} {c : Option ℚ} {x : Option χ} (h : o.add k b c x = (o', none)) :
    o'.cost = o.cost + c.getD 0 ∧ o'.costArr.sum = o.costArr.sum + c.getD 0 ∧ o'.numQueries = o.numQueries ∧ o'.history = o.history := by
  have : o.addMany [(k, b, c, x)] = (o', none) := by simp [ERepo.addMany, h]
  have := addMany_cost _ _ _ this
  simpa [costSum] using this

theorem discard_cost (o : ERepo κ β χ) (k : Option κ) (x : Option χ) :
    (o.discard k x).1.cost = o.cost ∧ (o.discard k x).1.costArr = o.costArr ∧ (o.discard k x).1.numQueries = o.numQueries ∧
    (o.discard k x).1.history = o.history := by
  have hi : ∀ (o : ERepo κ β χ) k, (o.discardIx k).1.cost = o.cost ∧ (o.discardIx k).1.costArr = o.costArr ∧
      (o.discardIx k).1.numQueries = o.numQueries ∧ (o.discardIx k).1.history = o.history := by
    intro o k
    unfold ERepo.discardIx
    simp only
    repeat' split
    all_goals exact ⟨rfl, rfl, rfl, rfl⟩
  have he : ∀ (o : ERepo κ β χ) x, (o.discardEx x).1.cost = o.cost ∧ (o.discardEx x).1.costArr = o.costArr ∧
      (o.discardEx x).1.numQueries = o.numQueries ∧ (o.discardEx x).1.history = o.history := by
    intro o x
    unfold ERepo.discardEx
    simp only
    repeat' split
    all_goals exact ⟨rfl, rfl, rfl, rfl⟩
  cases k with
  | none =>
    cases x with
    | none => exact ⟨rfl, rfl, rfl, rfl⟩
    | some x => exact he o x
  | some k =>
    cases x with
    | none => exact hi o k
    | some x =>
      simp only [ERepo.discard]
      split
      · exact hi o k
      · obtain ⟨a1, a2, a3, a4⟩ := he (o.discardIx k).1 x
        obtain ⟨b1, b2, b3, b4⟩ := hi o k
        exact ⟨a1.trans b1, a2.trans b2, a3.trans b3, a4.trans b4⟩

theorem update_cost {o o' : ERepo κ β χ} {indexes : Arg κ} {labels : Arg β} {cost : Option (Arg ℚ)} {examples : Option (Arg χ)}
    (h : o.updateQuery indexes labels cost examples = (o', none)) :
    o'.cost = o.cost + ((cost.map Arg.toList).getD []).sum ∧ o'.costArr.sum = o.costArr.sum + ((cost.map Arg.toList).getD []).sum ∧
    o'.numQueries = o.numQueries + 1 ∧ o'.history.length = o.history.length + 1 := by
  unfold ERepo.updateQuery at h
  split at h
  · rename_i hlen
    split at h
    · cases h
    · rename_i o1 h1
      cases h
      obtain ⟨i1, i2, i3, i4⟩ := addMany_cost _ _ _ h1
      have e : costSum ((repoRows labels.toList indexes.toList (cost.map Arg.toList) (examples.map Arg.toList)).map (fun t => t.2.2.1)) =
          ((cost.map Arg.toList).getD []).sum := by
        cases cost with
        | none => simpa using repoRows_nocost _ _ _
        | some cs =>
          simp only [oneToOne, List.all_cons, Bool.and_eq_true, decide_eq_true_eq, Option.map_some] at hlen
          simp only [Option.map_some, Option.getD_some]
          apply repoRows_costs
          · rw [Arg.length_toList, Arg.length_toList]; omega
          · rw [Arg.length_toList, Arg.length_toList]; omega
      rw [e] at i1 i2
      exact ⟨i1, i2, by simp [i3], by simp [i4]⟩
  · cases h

/-- A sequence of operations with the sum of the costs given in successful calls and the number of successful `update_query` calls. -/
inductive Run : ERepo κ β χ → ERepo κ β χ → ℚ → Nat → Prop
  | refl (o : ERepo κ β χ) : Run o o 0 0
  | step {o o1 o2 : ERepo κ β χ} {c c' : ℚ} {n n' : Nat} : Run o o1 c n → Step o1 o2 c' n' → Run o o2 (c + c') (n + n')

/-- C51, `ElementRepository`: along any sequence of calls, the total is the sum of the costs given in the successful calls and the sum of
the recorded costs, every successful `update_query` counts once, and failing calls charge nothing. -/
theorem C51_element_repository {labels : List β} {indexes : List κ} {examples : Option (List χ)} {o o' : ERepo κ β χ} {c : ℚ} {n : Nat}
    (hnew : ERepo.new labels indexes examples = .ok o) (h : Run o o' c n) :
    o'.cost = c ∧ o'.costArr.sum = c ∧ o'.numQueries = n ∧ o'.history.length = n := by
  induction h with
  | refl =>
    unfold ERepo.new at hnew
    split at hnew
    · cases hnew; simp
    · cases hnew
  | step _ hs ih =>
    obtain ⟨h1, h2, h3, h4⟩ := ih
    cases hs with
    | add k b c x h => obtain ⟨a1, a2, a3, a4⟩ := add_cost h; exact ⟨by rw [a1, h1], by rw [a2, h2], by simp [a3, h3], by simp [a4, h4]⟩
    | addFails k b c x e h => rw [(add_fail h).1]; exact ⟨by simp [h1], by simp [h2], by simp [h3], by simp [h4]⟩
    | update indexes labels cost examples h =>
      obtain ⟨a1, a2, a3, a4⟩ := update_cost h; exact ⟨by rw [a1, h1], by rw [a2, h2], by rw [a3, h3], by rw [a4, h4]⟩
    | updateFails indexes labels cost examples e h => rw [updateQuery_fail h]; exact ⟨by simp [h1], by simp [h2], by simp [h3], by simp [h4]⟩
    | discard k x res h =>
      obtain ⟨a1, a2, a3, a4⟩ := discard_cost _ k x
      rw [h] at a1 a2 a3 a4
      simp only at a1 a2 a3 a4
      exact ⟨by simp [a1, h1], by simp [a2, h2], by simp [a3, h3], by simp [a4, h4]⟩

example : ∃ o o' : ERepo Nat String Unit, ERepo.new ["a"] [0] none = .ok o ∧ Run o o' (0 + [1, 2].sum + (some (5 : ℚ)).getD 0) (0 + 1 + 0) :=
  ⟨_, _, rfl, .step (.step (.refl _) (.update (.many [1, 2]) (.many ["b", "c"]) (some (.many [1, 2])) none rfl))
    (.add 3 "d" (some 5) none rfl)⟩

end ERepo

namespace MRepo
variable {κ γ : Type} [DecidableEq κ] [DecidableEq γ]

/-- C51, `MatrixRepository`: `add` charges the cost of a row it stores and of no other (a repeated index is not charged), provided the
example fits. Missing: `C51_matrix_failed_add_violation`. -/
theorem C51_matrix_add_partial {o o' : MRepo κ γ} {w : Bool} {rows : List (Row κ (Lab γ) (List γ))} (ha : Aligned o w rows)
    (r : Row κ (Lab γ) (List γ)) (c : Option ℚ) (hf : Fits o r.ex) (res : Option PyErr)
    (h : o.add r.label r.index c r.ex = (o', res)) :
    (o'.cost = o.cost + c.getD 0 ∧ o'.costArr = o.costArr ++ [c] ∧ res = none ∧ r.index ∉ rows.map Row.index ∧
      Aligned o' w (rows ++ [keep w r])) ∨
    (o' = o ∧ (res ≠ none ∨ r.index ∈ rows.map Row.index)) := by
  rcases ha.add r c hf with ⟨h1, h2⟩ | ⟨h1, e, h2⟩ | ⟨h1, o1, h2, h3, -⟩
  · rw [h] at h2; cases h2; exact .inr ⟨rfl, .inr h1⟩
  · rw [h] at h2; cases h2; exact .inr ⟨rfl, .inl (by simp)⟩
  · rw [h] at h2
    cases h2
    left
    have : o'.cost = o.cost + c.getD 0 ∧ o'.costArr = o.costArr ++ [c] := by
      obtain ⟨⟨a, h0, -, hi, -, -⟩, -⟩ := ha
      unfold MRepo.add at h
      simp only [h0, hi, if_neg h1] at h
      split at h
      · cases hX : a.X with
        | none => simp only [hX] at h; cases h; exact ⟨rfl, rfl⟩
        | some xs =>
          obtain ⟨v, hv, hvl⟩ := hf a xs h0 hX
          simp only [hX, hv, hvl, if_true] at h
          cases h; exact ⟨rfl, rfl⟩
      · cases h
    exact ⟨this.1, this.2, rfl, h1, h3⟩

/-- C51, violation: an `add` that raises because the example is missing has been charged. -/
theorem C51_matrix_failed_add_violation (o : MRepo κ γ) (a : MArrays κ γ) (h : o.arr = some a) (xs : List (List γ)) (hx : a.X = some xs)
    (b : Lab γ) (hb : b.shape = a.shape) (k : κ) (hk : k ∉ a.indexes) (c : ℚ) :
    (o.add b k (some c) none).2 = some .genericException ∧ (o.add b k (some c) none).1.cost = o.cost + c := by
  simp [MRepo.add, h, hk, hb, hx]

end MRepo
end Alipy

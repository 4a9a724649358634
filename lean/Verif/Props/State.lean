import Verif.Model.State
import Verif.Proof.MultiLabelTools

/-! # C15: `State` -/
namespace Alipy
namespace State
variable {κ ε σ : Type}

theorem dictErase_get (k k' : String) (h : k' ≠ k) (d : List (String × Obj σ)) : dictGet k' (dictErase k d) = dictGet k' d := by
  induction d with
  | nil => rfl
  | cons p r ih =>
    obtain ⟨a, b⟩ := p
    simp only [dictErase]
    by_cases ha : a = k
    · subst ha
      have : ¬ a = k' := fun e => h e.symm
      simp [dictGet, this]
    · simp [ha, dictGet, ih]

theorem dictGet_none_iff (k : String) (d : List (String × Obj σ)) : dictGet k d = none ↔ k ∉ d.map Prod.fst := by
  induction d with
  | nil => simp [dictGet]
  | cons p r ih =>
    obtain ⟨a, b⟩ := p
    simp only [dictGet]
    by_cases ha : a = k
    · simp [ha]
    · have : ¬ k = a := fun e => ha e.symm
      simp [ha, this, ih]

/-- What the property calls the critical entries. -/
def critical : List String := ["select_index", "performance", "cost"]

theorem step_keeps (s : State σ) (op : Op σ) (k : String) (hk : k ∈ critical) (h : k ∈ s.keys) : k ∈ (s.step op).1.keys := by
  unfold State.keys at h ⊢
  rw [← Classical.not_not (a := k ∈ s.entries.map Prod.fst), ← dictGet_none_iff] at h
  rw [← Classical.not_not (a := k ∈ List.map _ _), ← dictGet_none_iff]
  cases op with
  | add k' v =>
    simp only [step, addElement, dictGet_dictSet]
    split
    · simp
    · exact h
  | set k' v =>
    simp only [step, setValue]
    split
    · exact h
    · simp only [dictGet_dictSet]
      split
      · simp
      · exact h
  | del k' =>
    simp only [step, delElement]
    split
    · exact h
    · rename_i hn
      split
      · exact h
      · have : k ≠ k' := by
          rintro rfl
          apply hn
          simp only [critical, List.mem_cons, List.not_mem_nil, or_false] at hk ⊢
          rcases hk with h | h | h <;> simp [h]
        simp only [dictErase_get k' k this]
        exact h

/-- C15: whatever calls follow the construction of a State (successful or not), its `select_index` and `performance` entries
are present, and its `cost` entry if a cost was given. -/
theorem C15_critical_entries_stay (ops : CollOps κ ε σ) (sel : ε ⊕ σ) (perf : Obj σ) (label cost : Option (Obj σ))
    (hist : List (Op σ)) :
    let s := (new ops sel perf label cost).run hist
    (∃ v, s.getValue "select_index" = .ok v) ∧ (∃ v, s.getValue "performance" = .ok v) ∧
      (cost ≠ none → ∃ v, s.getValue "cost" = .ok v) := by
  intro s
  have hget : ∀ k ∈ critical, k ∈ (new ops sel perf label cost).keys → ∃ v, s.getValue k = .ok v := by
    intro k hk h
    have : k ∈ s.keys := by
      change k ∈ ((new ops sel perf label cost).run hist).keys
      generalize new ops sel perf label cost = t at h
      clear s
      induction hist generalizing t with
      | nil => exact h
      | cons op r ih => exact ih _ (step_keeps t op k hk h)
    unfold getValue
    cases hg : dictGet k s.entries with
    | none => exact absurd this ((dictGet_none_iff _ _).1 hg)
    | some v => exact ⟨v, rfl⟩
  refine ⟨hget _ (by simp [critical]) ?_, hget _ (by simp [critical]) ?_, fun hc => hget _ (by simp [critical]) ?_⟩
  · cases label <;> cases cost <;> simp [new, keys, dictSet]
  · cases label <;> cases cost <;> simp [new, keys, dictSet]
  · cases label <;> cases cost <;> simp_all [new, keys, dictSet]

/-- C15: right after the construction the entries are the given ones (a single index wrapped into a list), and the batch size
is their number. -/
theorem C15_constructor_stores_the_arguments (ops : CollOps κ ε σ) (sel : ε ⊕ σ) (perf : Obj σ) (label cost : Option (Obj σ)) :
    let s := new ops sel perf label cost
    let l := sel.elim ops.single id
    s.getValue "select_index" = .ok (.sel l) ∧ s.getValue "performance" = .ok perf ∧
      (∀ v, s.getValue "queried_label" = .ok v ↔ label = some v) ∧ (∀ v, s.getValue "cost" = .ok v ↔ cost = some v) ∧
      s.batch = ops.selLen l := by
  cases sel <;> cases label <;> cases cost <;> simp [new, getValue, dictGet, dictSet]

/-- C15: `set_value` works exactly on existing keys, and then (as `add_element` always) changes exactly that entry; a refused
call changes nothing. -/
theorem C15_set_value (s : State σ) (k : String) (v : Obj σ) :
    (k ∉ s.keys → s.setValue k v = (s, some .keyError)) ∧
    (k ∈ s.keys → (s.setValue k v).2 = none ∧ (s.setValue k v).1.getValue k = .ok v ∧
      ∀ k', k' ≠ k → (s.setValue k v).1.getValue k' = s.getValue k') ∧
    (s.addElement k v).getValue k = .ok v ∧ ∀ k', k' ≠ k → (s.addElement k v).getValue k' = s.getValue k' := by
  refine ⟨fun h => by simp [setValue, h], fun h => ⟨by simp [setValue, h], ?_, ?_⟩, ?_, ?_⟩
  · simp [setValue, h, getValue, dictGet_dictSet]
  · intro k' hk
    have : ¬ k = k' := fun e => hk e.symm
    simp [setValue, h, getValue, dictGet_dictSet, this, hk]
  · simp [addElement, getValue, dictGet_dictSet]
  · intro k' hk
    have : ¬ k = k' := fun e => hk e.symm
    simp [addElement, getValue, dictGet_dictSet, this, hk]

theorem dictErase_self (k : String) (d : List (String × Obj σ)) (h : (d.map Prod.fst).Nodup) :
    dictGet k (dictErase k d) = none := by
  rw [dictGet_none_iff]
  induction d with
  | nil => simp [dictErase]
  | cons p r ih =>
    obtain ⟨a, b⟩ := p
    rw [List.map_cons, List.nodup_cons] at h
    simp only [dictErase]
    by_cases ha : a = k
    · subst ha; simpa using h.1
    · have : ¬ k = a := fun e => ha e.symm
      simp [ha, this]
      simpa using ih h.2

theorem dictErase_nodup (k : String) (d : List (String × Obj σ)) (h : (d.map Prod.fst).Nodup) :
    ((dictErase k d).map Prod.fst).Nodup := by
  have hs : (dictErase k d).Sublist d := by
    clear h
    induction d with
    | nil => exact .slnil
    | cons p r ih =>
      obtain ⟨a, b⟩ := p
      simp only [dictErase]
      split
      · exact List.sublist_cons_self _ _
      · exact ih.cons_cons _
  exact h.sublist (hs.map _)

theorem run_nodup (hist : List (Op σ)) : ∀ s : State σ, s.keys.Nodup → (s.run hist).keys.Nodup := by
  induction hist with
  | nil => intro s h; exact h
  | cons op r ih =>
    intro s h
    apply ih
    cases op with
    | add k v => exact dictSet_nodup _ _ _ h
    | set k v =>
      simp only [step, setValue]
      split
      · exact h
      · exact dictSet_nodup _ _ _ h
    | del k =>
      simp only [step, delElement]
      split
      · exact h
      · split
        · exact h
        · exact dictErase_nodup k _ h

/-- C15: `del_element` of a critical or an unknown key changes nothing; otherwise (on any state reached by public calls) it
removes exactly that entry. -/
theorem C15_del_element (ops : CollOps κ ε σ) (sel : ε ⊕ σ) (perf : Obj σ) (label cost : Option (Obj σ)) (hist : List (Op σ))
    (k : String) :
    let s := (new ops sel perf label cost).run hist
    (k ∈ critical ∨ k ∉ s.keys → s.delElement k = s) ∧
    (k ∉ critical → k ≠ "queried_info" → s.getValue k ≠ .error .keyError →
      (s.delElement k).getValue k = .error .keyError) ∧
    ∀ k', k' ≠ k → (s.delElement k).getValue k' = s.getValue k' := by
  intro s
  have hn : s.keys.Nodup := by
    apply run_nodup
    cases label <;> cases cost <;> simp [new, keys, dictSet]
  refine ⟨?_, ?_, ?_⟩
  · rintro (h | h)
    · unfold delElement
      rw [if_pos]
      simp only [critical, List.mem_cons, List.not_mem_nil, or_false] at h ⊢
      rcases h with h | h | h <;> simp [h]
    · unfold delElement
      split
      · rfl
      · simp [h]
  · intro hc hq hg
    unfold delElement
    rw [if_neg]
    · split
      · rename_i hk
        exfalso; apply hg
        simp [getValue, (dictGet_none_iff k s.entries).2 hk]
      · simp [getValue, dictErase_self k s.entries hn]
    · simp only [critical, List.mem_cons, List.not_mem_nil, or_false, not_or] at hc ⊢
      exact ⟨hc.1, hq, hc.2⟩
  · intro k' hk
    unfold delElement
    split
    · rfl
    · split
      · rfl
      · simp [getValue, dictErase_get k k' hk]

/-- A history that tries to destroy a state. -/
example : ((new icOps (.inr [⟨false, .int 3⟩, ⟨false, .int 5⟩]) (.arr [1 / 2]) none (some (.arr [1, 2]))).run
    [.del "cost", .add "extra" (.other 0), .set "nope" (.other 1), .del "extra", .set "performance" (.arr [3 / 4])]).keys =
      ["select_index", "performance", "cost"] := by decide

end State
end Alipy

import Verif.Props.IndexCollection
import Verif.Props.MultiLabel
import Verif.Props.Limits
import Verif.Model.Repository
/-!
# C148: what was given can be taken back
-/
namespace Alipy.Undo
open Alipy Alipy.Spec

/-! ## Collections -/

theorem eraseFirst_filter (v : Val) : ∀ l : List Val, (l.map Val.key).Nodup → IC.eraseFirst v l = l.filter (fun w => decide (w.key ≠ v.key))
  | [], _ => rfl
  | x :: l, h => by
    rw [List.map_cons, List.nodup_cons] at h
    rw [IC.eraseFirst, List.filter_cons]
    by_cases hx : v.key = x.key
    · rw [if_pos (by simpa [pyEq] using hx), if_neg (by simp [hx])]
      symm
      rw [List.filter_eq_self]
      intro w hw
      simp only [decide_eq_true_eq]
      rintro e
      exact h.1 (by rw [← hx, ← e]; exact List.mem_map_of_mem hw)
    · rw [if_neg (by simpa [pyEq] using hx), if_pos (by simpa using fun e => hx e.symm), eraseFirst_filter v l h.2]

theorem discardAll_filter : ∀ (vs : List Val) (c : IC), c.keys.Nodup → (c.discardAll vs).inner = c.inner.filter (fun w => decide (w.key ∉ vs.map Val.key))
  | [], c, _ => by simp [IC.discardAll]
  | v :: vs, c, h => by
    have h1 : (c.discard v).inner = c.inner.filter (fun w => decide (w.key ≠ v.key)) := by
      unfold IC.discard
      split
      · exact eraseFirst_filter v _ h
      · rename_i hm
        symm
        rw [List.filter_eq_self]
        intro w hw
        simp only [decide_eq_true_eq]
        intro e
        exact hm ((IC.pyMem_iff _ _).2 (by rw [← e]; exact List.mem_map_of_mem hw))
    rw [IC.discardAll, discardAll_filter vs _ (IC.discard_keys_nodup c v h), h1, List.filter_filter]
    congr 1
    funext w
    simp [Bool.and_comm]

/-- **C148**: indexes that were not in an `IndexCollection` can be added and taken away again: the collection is listed as before. -/
theorem C148_added {c : IC} (h : IC.Reachable c) {vs : List Val} (hok : (c.update (.many vs)).2 = none) (hnew : ∀ v ∈ vs, pyMem v c.inner = false) :
    ((c.update (.many vs)).1.differenceUpdate (.many vs)).inner = c.inner := by
  obtain ⟨hk, t, ht⟩ := C03_update_appends_in_order c h vs hok
  have hnd : (c.update (.many vs)).1.keys.Nodup := IC.reachable_nodup (IC.Reachable.step (.update (.many vs)) h)
  change ((c.update (.many vs)).1.discardAll vs).inner = c.inner
  rw [discardAll_filter _ _ hnd, ← ht, List.filter_append]
  have h1 : c.inner.filter (fun w => decide (w.key ∉ vs.map Val.key)) = c.inner := by
    rw [List.filter_eq_self]
    intro w hw
    simp only [decide_eq_true_eq, List.mem_map, not_exists, not_and]
    intro v hv e
    have := hnew v hv
    rw [← Bool.not_eq_true, IC.pyMem_iff] at this
    exact this (by rw [e]; exact List.mem_map_of_mem hw)
  have h2 : t.filter (fun w => decide (w.key ∉ vs.map Val.key)) = [] := by
    rw [List.filter_eq_nil_iff]
    intro w hw
    simp only [decide_eq_true_eq, not_not]
    have hmem : w.key ∈ (c.update (.many vs)).1.keys := by
      unfold IC.keys
      rw [← ht, List.map_append]
      exact List.mem_append_right _ (List.mem_map_of_mem hw)
    have hm' := hmem
    rw [hk, List.mem_eraseDups, List.mem_append] at hmem
    rcases hmem with hc | hv
    · exfalso
      unfold IC.keys at hnd
      rw [← ht, List.map_append] at hnd
      exact (List.nodup_append.1 hnd).2.2 _ hc _ (List.mem_map_of_mem hw) rfl
    · exact hv
  rw [h1, h2, List.append_nil]

/-- **C148**: members that were taken away can be put back: the collection has the same members as before (the ones put back are listed last). -/
theorem C148_removed {c : IC} (h : IC.Reachable c) {vs : List Val} (hin : ∀ v ∈ vs, pyMem v c.inner = true)
    (hok : ((c.differenceUpdate (.many vs)).update (.many vs)).2 = none) :
    (((c.differenceUpdate (.many vs)).update (.many vs)).1.keys).Perm c.keys := by
  have hr : IC.Reachable (c.differenceUpdate (.many vs)) := IC.Reachable.step (.differenceUpdate (.many vs)) h
  refine (List.perm_ext_iff_of_nodup (IC.reachable_nodup (IC.Reachable.step (.update (.many vs)) hr)) (IC.reachable_nodup h)).2 ?_
  intro k
  change k ∈ ((c.differenceUpdate (.many vs)).update (.many vs)).1.keys ↔ _
  rw [(C03_update_appends_in_order _ hr vs hok).1, List.mem_eraseDups, List.mem_append, C03_difference_keeps_order c h vs, List.mem_filter]
  simp only [decide_eq_true_eq]
  constructor
  · rintro (h1 | h1)
    · exact h1.1
    · obtain ⟨v, hv, rfl⟩ := List.mem_map.1 h1
      exact (IC.pyMem_iff _ _).1 (hin v hv)
  · intro hk
    by_cases h2 : k ∈ vs.map Val.key
    · exact .inr h2
    · exact .inl ⟨hk, h2⟩

example : let c := IC.mk' [⟨false, .int 0⟩, ⟨false, .int 1⟩]
    let vs : List Val := [⟨false, .int 5⟩, ⟨true, .int 4⟩]
    (c.update (.many vs)).2 = none ∧ (∀ v ∈ vs, pyMem v c.inner = false) ∧ ((c.update (.many vs)).1.differenceUpdate (.many vs)).inner = c.inner ∧
      (c.update (.many vs)).1.inner ≠ c.inner := by decide

/-- **C148**: pairs (example, label) that were not in a `MultiLabelIndexCollection` can be added and taken away again, in any of the accepted forms. -/
theorem C148_pairs (c : MLIC) (L : Int) (hl : c.lsz = some L) (h0 : 0 < L) (hs : c.isList = false) (a a' : MLIC.Arg) (ixs ixs' : List Ix) (ha : MLIC.Stands a ixs)
    (ha' : MLIC.Stands a' ixs') (hlegal : ∀ ix ∈ ixs, Legal L ix) (hlegal' : ∀ ix ∈ ixs', Legal L ix) (hnt : ∀ e h ls, a ≠ .tuple (.pair e (.iter h ls)))
    (hnt' : ∀ e h ls, a' ≠ .tuple (.pair e (.iter h ls))) (hsame : ∀ p, DenotesAny L ixs p ↔ DenotesAny L ixs' p) :
    -- added and taken away
    ((∀ p, DenotesAny L ixs p → (p.1, Second.scal p.2) ∉ c.inner) → ∃ c₁ c₂, c.update a = (c₁, none) ∧ c₁.differenceUpdate a' = (c₂, none) ∧
      (∀ q, q ∈ c₂.inner ↔ q ∈ c.inner)) ∧
    -- taken away and put back
    ((∀ p, DenotesAny L ixs p → (p.1, Second.scal p.2) ∈ c.inner) → ∃ c₁ c₂, c.differenceUpdate a = (c₁, none) ∧ c₁.update a' = (c₂, none) ∧
      (∀ q, q ∈ c₂.inner ↔ q ∈ c.inner)) := by
  constructor
  · intro hnew
    obtain ⟨c₁, e1, l1, s1, m1⟩ := MLIC.C08_update_is_union_partial c L hl h0 hs a ixs ha hlegal hnt
    obtain ⟨c₂, e2, l2, s2, m2⟩ := MLIC.C08_difference_is_set_difference_partial c₁ L (l1.trans hl) h0 s1 a' ixs' ha' hlegal' hnt'
    refine ⟨c₁, c₂, e1, e2, fun q => ?_⟩
    rw [m2, m1]
    constructor
    · rintro ⟨hq | ⟨p, rfl, hp⟩, hn⟩
      · exact hq
      · exact absurd ⟨p, rfl, (hsame p).1 hp⟩ hn
    · intro hq
      refine ⟨.inl hq, ?_⟩
      rintro ⟨p, rfl, hp⟩
      exact hnew p ((hsame p).2 hp) hq
  · intro hin
    obtain ⟨c₁, e1, l1, s1, m1⟩ := MLIC.C08_difference_is_set_difference_partial c L hl h0 hs a ixs ha hlegal hnt
    obtain ⟨c₂, e2, l2, s2, m2⟩ := MLIC.C08_update_is_union_partial c₁ L (l1.trans hl) h0 s1 a' ixs' ha' hlegal' hnt'
    refine ⟨c₁, c₂, e1, e2, fun q => ?_⟩
    rw [m2, m1]
    constructor
    · rintro (⟨hq, -⟩ | ⟨p, rfl, hp⟩)
      · exact hq
      · exact hin p ((hsame p).2 hp)
    · intro hq
      by_cases h : ∃ p, q = (p.1, Second.scal p.2) ∧ DenotesAny L ixs p
      · obtain ⟨p, rfl, hp⟩ := h
        exact .inr ⟨p, rfl, (hsame p).1 hp⟩
      · exact .inl ⟨hq, h⟩

/-- All labels of example 1 are added as one tuple and taken away as three. -/
example : ∃ c₁ c₂, (MLIC.update ⟨[(0, .scal 2)], some 3, false⟩ (.list [.tup (.all 1)])) = (c₁, none) ∧
    c₁.differenceUpdate (.list [.tup (.pair 1 (.scal 0)), .tup (.pair 1 (.scal 2)), .tup (.pair 1 (.scal 1))]) = (c₂, none) ∧ c₁.inner.length = 4 ∧
    c₂.inner = [(0, .scal 2)] := ⟨_, _, rfl, rfl, by decide, by decide⟩

/-! ## Repositories -/

section
variable {κ β χ γ : Type} [DecidableEq κ] [DecidableEq χ] [DecidableEq γ]

theorem dictSet_new {ν : Type} (k : κ) (v : ν) : ∀ d : List (κ × ν), dictGet k d = none → dictSet k v d = d ++ [(k, v)]
  | [], _ => rfl
  | (k', v') :: d, h => by
    rw [dictGet] at h
    split at h
    · cases h
    · rename_i hk
      rw [dictSet, if_neg hk, dictSet_new k v d h, List.cons_append]

theorem dictGet_none {ν : Type} (k : κ) : ∀ d : List (κ × ν), dictGet k d = none → ∀ p ∈ d, p.1 ≠ k
  | [], _ => by simp
  | (k', v') :: d, h => by
    rw [dictGet] at h
    split at h
    · cases h
    · rename_i hk
      intro p hp
      rcases List.mem_cons.1 hp with rfl | hp
      · exact fun e => hk e
      · exact dictGet_none k d h p hp

theorem dictErase_set {ν : Type} (k : κ) (v : ν) (d : List (κ × ν)) (h : dictGet k d = none) : dictErase k (dictSet k v d) = d := by
  rw [dictSet_new k v d h, dictErase, List.filter_append]
  have : d.filter (fun p => decide (p.1 ≠ k)) = d := by
    rw [List.filter_eq_self]
    intro p hp
    simpa using dictGet_none k d h p hp
  rw [this]
  simp

theorem dictGet_set {ν : Type} (k : κ) (v : ν) : ∀ d : List (κ × ν), dictGet k (dictSet k v d) = some v
  | [] => by simp [dictSet, dictGet]
  | (k', v') :: d => by
    by_cases hk : k' = k
    · rw [dictSet, if_pos hk, dictGet, if_pos hk]
    · rw [dictSet, if_neg hk, dictGet, if_neg hk, dictGet_set k v d]

/-- **C148**, `ElementRepository`: an entry with a new index (and a new example) that was added can be discarded by its index or by its example: the
repository then holds what it held before. Only the cost stays: what was paid is paid. -/
theorem C148_repository (o : ERepo κ β χ) (k : κ) (b : β) (cost : Option ℚ) (ex : Option χ) (hk : k ∉ o.indexes) (hl : dictGet k o.ind2label = none)
    (hx : o.hasEx = true → dictGet k o.ind2exa = none ∧ ∃ x, ex = some x ∧ dictGet x o.exa2ind = none) :
    ∃ o', o.add k b cost ex = (o', none) ∧ k ∈ o'.indexes ∧
      o'.discard (some k) none = ({ o with cost := o.cost + cost.getD 0, costArr := o.costArr ++ cost.toList }, none) ∧
      (o.hasEx = true → o'.discard none ex = ({ o with cost := o.cost + cost.getD 0, costArr := o.costArr ++ cost.toList }, none)) := by
  have hea : (o.indexes ++ [k]).erase k = o.indexes := by rw [List.erase_append_right _ hk]; simp
  by_cases he : o.hasEx = true
  · obtain ⟨h1, x, rfl, h2⟩ := hx he
    refine ⟨({ o with exa2ind := dictSet x k o.exa2ind, ind2exa := dictSet k x o.ind2exa } : ERepo κ β χ).addRest k b cost, by unfold ERepo.add; rw [if_pos he],
      by simp [ERepo.addRest], ?_, fun _ => ?_⟩
    · simp only [ERepo.discard, ERepo.discardIx, ERepo.addRest, List.mem_append, List.mem_singleton, or_true, if_true, dictGet_set, he, hea,
        dictErase_set _ _ _ hl, dictErase_set _ _ _ h1, dictErase_set _ _ _ h2]
    · simp only [ERepo.discard, ERepo.discardEx, ERepo.addRest, List.mem_append, List.mem_singleton, or_true, if_true, dictGet_set, he, hea,
        dictErase_set _ _ _ hl, dictErase_set _ _ _ h1, dictErase_set _ _ _ h2]
  · simp only [Bool.not_eq_true] at he
    refine ⟨o.addRest k b cost, by unfold ERepo.add; rw [if_neg (by simp [he])], by simp [ERepo.addRest], ?_, fun h => by rw [he] at h; cases h⟩
    simp only [ERepo.discard, ERepo.discardIx, ERepo.addRest, List.mem_append, List.mem_singleton, or_true, if_true, dictGet_set, he, hea,
      dictErase_set _ _ _ hl, Bool.false_eq_true, if_false]

omit [DecidableEq κ] [DecidableEq χ] [DecidableEq γ] in
theorem mask_snoc {α : Type} (l : List α) (m : List Bool) (x : α) (h : l.length = m.length) (hm : ∀ b ∈ m, b = true) : MRepo.mask (m ++ [false]) (l ++ [x]) = l := by
  unfold MRepo.mask
  rw [List.zip_append h, List.filter_append, List.map_append]
  have : (l.zip m).filter (fun p => p.2) = l.zip m := by
    rw [List.filter_eq_self]
    rintro ⟨a, b⟩ hp
    exact hm b (List.of_mem_zip hp).2
  rw [this, List.map_fst_zip (by omega)]
  simp

/-- **C148**, `MatrixRepository`: an entry with a new index (and, if there are examples, an example of the width of the others) that was added can be discarded
by its index; the arrays are then as before. The cost stays. -/
theorem C148_matrix_repository (o : MRepo κ γ) (a : MArrays κ γ) (ha : o.arr = some a) (hy : a.y.length = a.indexes.length)
    (hX : ∀ xs, a.X = some xs → xs.length = a.indexes.length) (k : κ) (hk : k ∉ a.indexes) (b : Lab γ) (hb : b.shape = a.shape) (cost : Option ℚ)
    (ex : Option (List γ)) (hx : ∀ xs, a.X = some xs → ∃ x, ex = some x ∧ x.length = a.dim) :
    ∃ o', o.add b k cost ex = (o', none) ∧ (∃ a', o'.arr = some a' ∧ k ∈ a'.indexes) ∧
      o'.discard (some k) none = ({ o with cost := o.cost + cost.getD 0, costArr := o.costArr ++ [cost] }, none) := by
  have hm : a.indexes.map (fun i => decide (some i ≠ some k)) = a.indexes.map (fun _ => true) := by
    refine List.map_congr_left fun i hi => ?_
    simp only [ne_eq, Option.some.injEq, decide_eq_true_eq]
    rintro rfl
    exact hk hi
  have hml : ∀ b ∈ a.indexes.map (fun _ => true), b = true := by
    intro b hb
    obtain ⟨_, _, rfl⟩ := List.mem_map.1 hb
    rfl
  cases hxs : a.X with
  | none =>
    refine ⟨{ o with arr := some { a with y := a.y ++ [b], indexes := a.indexes ++ [k] }, cost := o.cost + cost.getD 0, costArr := o.costArr ++ [cost] },
      by simp only [MRepo.add, ha, hk, if_false, hb, if_true, hxs], ⟨_, rfl, by simp⟩, ?_⟩
    simp only [MRepo.discard, Option.map_some, List.mem_append, List.mem_singleton, or_true, decide_true, Option.getD_some, if_true, MRepo.applyMask, hxs,
      List.map_append, hm, List.map_cons, List.map_nil, ne_eq, not_true, decide_false]
    rw [mask_snoc _ _ _ (by simpa using hy) hml, mask_snoc _ _ _ (by simp) hml, ha]
    obtain ⟨⟩ := a
    simp at hxs
    simp [hxs]
  | some xs =>
    obtain ⟨x, rfl, hd⟩ := hx xs hxs
    have hl := hX xs hxs
    refine ⟨{ o with arr := some { a with y := a.y ++ [b], indexes := a.indexes ++ [k], X := some (xs ++ [x]) }, cost := o.cost + cost.getD 0, costArr := o.costArr ++ [cost] },
      by simp only [MRepo.add, ha, hk, if_false, hb, if_true, hxs, hd], ⟨_, rfl, by simp⟩, ?_⟩
    simp only [MRepo.discard, Option.map_some, List.mem_append, List.mem_singleton, or_true, decide_true, Option.getD_some, if_true, MRepo.applyMask,
      List.map_append, hm, List.map_cons, List.map_nil, ne_eq, not_true, decide_false, List.length_append, List.length_map, List.length_cons, List.length_nil, hl]
    rw [mask_snoc _ _ _ (by simpa using hy) hml, mask_snoc _ _ _ (by simp) hml, mask_snoc _ _ _ (by simpa using hl) hml, ha]
    obtain ⟨⟩ := a
    simp at hxs
    simp [hxs]

end

/-- A repository with examples: the entry 7 is added and discarded. -/
example : ∃ (o o' : ERepo Nat String String), ERepo.new ["a", "b"] [3, 5] (some ["x", "y"]) = .ok o ∧ o.add 7 "c" (some 2) (some "z") = (o', none) ∧
    (o'.getTrainingData).toOption = some (["x", "y", "z"], ["a", "b", "c"], [3, 5, 7]) ∧
    ((o'.discard (some 7) none).1.getTrainingData).toOption = some (["x", "y"], ["a", "b"], [3, 5]) ∧ (o'.discard (some 7) none).1.cost = 2 :=
  ⟨_, _, rfl, rfl, by decide +kernel, by decide +kernel, by decide +kernel⟩

/-! ## Saved states -/

section
variable {κ ε σ : Type} {ops : CollOps κ ε σ}

theorem info_form (ops : CollOps κ ε σ) (s : StateIO κ σ) (e : Entry σ)
    (hok : (match StateIO.entryCost e with
      | .error err => ({ s with states := s.states ++ [e] }, some err)
      | .ok c =>
        match StateIO.entryLen ops e with
        | .error err => ({ s with states := s.states ++ [e], cost := s.cost + c }, some err)
        | .ok n => ({ s with states := s.states ++ [e], cost := s.cost + c, numq := s.numq + n }, none) : StateIO κ σ × Option PyErr).2 = none) :
    ∃ c n, (match StateIO.entryCost e with
      | .error err => ({ s with states := s.states ++ [e] }, some err)
      | .ok c =>
        match StateIO.entryLen ops e with
        | .error err => ({ s with states := s.states ++ [e], cost := s.cost + c }, some err)
        | .ok n => ({ s with states := s.states ++ [e], cost := s.cost + c, numq := s.numq + n }, none) : StateIO κ σ × Option PyErr).1 =
      { s with states := s.states ++ [e], cost := s.cost + c, numq := s.numq + n } := by
  cases hc : StateIO.entryCost e with
  | error err => rw [hc] at hok; cases hok
  | ok c =>
    rw [hc] at hok
    simp only at hok ⊢
    cases hn : StateIO.entryLen ops e with
    | error err => rw [hn] at hok; cases hok
    | ok n => exact ⟨c, n, rfl⟩

/-- **C148**, `StateIO`: a state that was added can be popped again; afterwards every workspace is as before, and if the totals were up to date before, then
`refresh_info` restores the whole record. -/
theorem C148_state (s : StateIO κ σ) (e : Entry σ) (hok : (s.addState ops e).2 = none) :
    ∃ s', (s.addState ops e).1.pop (some (-1)) = (s', .ok e) ∧ (s.addState ops e).1.pop (some s.states.length) = (s', .ok e) ∧ s'.states = s.states ∧
      (∀ i, s'.getWorkspace ops i = s.getWorkspace ops i) ∧ (StateIO.totals ops s.states = .ok (s.numq, s.cost) → s'.refreshInfo ops = (s, none)) := by
  have hform : ∃ c n, (s.addState ops e).1 = { s with states := s.states ++ [e], cost := s.cost + c, numq := s.numq + n } := by
    cases e with
    | st st =>
      simp only [StateIO.addState, Bool.not_true, Bool.false_eq_true, if_false] at hok ⊢
      exact info_form ops s _ hok
    | dict d =>
      by_cases h1 : (["select_index", "queried_info", "performance"].all (fun k => decide (k ∈ d.map Prod.fst))) = true
      · simp only [StateIO.addState, h1, Bool.not_true, Bool.false_eq_true, if_false] at hok ⊢
        exact info_form ops s _ hok
      · simp [StateIO.addState, h1] at hok
  obtain ⟨c, n, hf⟩ := hform
  rw [hf]
  refine ⟨{ s with cost := s.cost + c, numq := s.numq + n }, ?_, ?_, rfl, fun i => rfl, fun ht => ?_⟩
  · simp only [StateIO.pop]
    have h1 : (-1 : Int) < 0 := by decide
    have h2 : (-1 : Int) + ((s.states ++ [e]).length : Nat) = (s.states.length : Nat) := by simp
    rw [if_pos h1, h2, if_pos (by omega), Int.toNat_natCast]
    simp [List.eraseIdx_append_of_length_le]
  · simp only [StateIO.pop]
    have h1 : ¬ ((s.states.length : Int) < 0) := by omega
    rw [if_neg h1, if_pos (by omega), Int.toNat_natCast]
    simp [List.eraseIdx_append_of_length_le]
  · simp only [StateIO.refreshInfo, ht]

end

/-- A record of one query, and a second one that is taken back. -/
example : let s := ((StateIO.new (IC.mk' [⟨false, .int 0⟩]) (IC.mk' [⟨false, .int 1⟩, ⟨false, .int 2⟩, ⟨false, .int 3⟩])).addState icOps
      (.st (State.new icOps (.inr [⟨false, .int 2⟩]) (.other 0) none (some (.arr [5]))))).1
    let e : Entry (List Val) := .st (State.new icOps (.inr [⟨false, .int 1⟩]) (.other 0) none (some (.arr [7])))
    (s.addState icOps e).2 = none ∧ (s.addState icOps e).1.cost = 12 ∧ (StateIO.totals icOps s.states).toOption = some (s.numq, s.cost) ∧
      (((s.addState icOps e).1.pop (some (-1))).1.refreshInfo icOps).1 = s := by decide +kernel

end Alipy.Undo

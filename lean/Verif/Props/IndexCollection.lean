import Verif.Proof.IndexCollection
import Mathlib.Data.Finset.Card

/-!
# C01 - C04: `IndexCollection`

`IC.Reachable c`: `c` is the state of an `IndexCollection` after any construction and any sequence of
public calls, including calls that raised.  `pyMem v l` is Python's `v in l`, `v.key` what `==` compares.
-/
namespace Alipy
open IC

/-! ## C01 -/

/-- C01: in every reachable collection no two listed elements are equal (`==`). -/
theorem C01_no_index_twice (c : IC) (h : Reachable c) :
    c.inner.Pairwise (fun v w => pyEq v w = false) := by
  have := reachable_nodup h
  rw [keys, List.Nodup, List.pairwise_map] at this
  exact this.imp (fun {a b} hab => by simpa [pyEq] using hab)

/-- A reachable state with a non-trivial history: duplicates in the constructor, a failing add,
an update with repetitions. -/
example : Reachable ((mk' [⟨false, .int 3⟩, ⟨false, .int 1⟩, ⟨true, .int 3⟩]).run
    [.add ⟨false, .str "a"⟩, .update (.many [⟨false, .int 7⟩, ⟨false, .int 1⟩, ⟨true, .int 7⟩]), .pop]) :=
  .step _ (.step _ (.step _ (.construct _)))

/-! ## C02 -/

/-- The indexes meant by the argument of a bulk operation on `c`. -/
def argVals (c : IC) : Arg → List Val
  | .many vs => vs
  | .one v => [v]
  | .self => c.inner

/-- C02 (update): a successful `update` is set union, and the length is the number of distinct indexes
in the union - for every argument form, the collection itself included. -/
theorem C02_update_is_union (c : IC) (h : Reachable c) (a : Arg) (hok : (c.update a).2 = none) :
    (∀ v, pyMem v (c.update a).1.inner = true ↔ (pyMem v c.inner = true ∨ pyMem v (argVals c a) = true)) ∧
    (c.update a).1.inner.length = ((c.inner ++ argVals c a).map Val.key).toFinset.card := by
  have hn := reachable_nodup h
  have hk : (c.update a).1.keys = (c.keys ++ (argVals c a).map Val.key).eraseDups := by
    cases a with
    | many vs => exact addAll_keys_ok vs c hn hok
    | one v => exact addAll_keys_ok [v] c hn hok
    | self =>
      have hs : c.update .self = (c, none) := addSelf_eq _ _ _ (reachable_wellTyped h)
      rw [hs]
      simp only [argVals]
      rw [List.eraseDups_append, eraseDups_of_nodup _ hn]
      have : (List.map Val.key c.inner).removeAll c.keys = [] := by
        simp [List.removeAll, keys]
      rw [this]
      simp
  constructor
  · intro v
    rw [pyMem_iff, pyMem_iff, pyMem_iff]
    change v.key ∈ (c.update a).1.keys ↔ _
    rw [hk, List.mem_eraseDups, List.mem_append]
    rfl
  · have hn' : (c.update a).1.keys.Nodup := reachable_nodup (.step (.update a) h)
    have : (c.update a).1.inner.length = (c.update a).1.keys.length := by simp [keys]
    rw [this, ← List.toFinset_card_of_nodup hn', hk]
    congr 1
    ext x
    simp [keys]

/-- C02 (difference_update), for an argument other than the collection itself: set difference, and the
length drops by exactly the number of distinct indexes removed. What is missing is the call
`c.difference_update(c)`, for which the claim is false: see `C02_self_difference_violation`. -/
theorem C02_difference_is_set_difference_partial (c : IC) (h : Reachable c) (a : Arg) (ha : a ≠ .self) :
    (∀ v, pyMem v (c.differenceUpdate a).inner = true ↔
      (pyMem v c.inner = true ∧ pyMem v (argVals c a) = false)) ∧
    (c.differenceUpdate a).inner.length =
      ((c.inner.map Val.key).toFinset \ ((argVals c a).map Val.key).toFinset).card := by
  have hn := reachable_nodup h
  have hk : (c.differenceUpdate a).keys =
      c.keys.filter (fun k => decide (k ∉ (argVals c a).map Val.key)) := by
    cases a with
    | many vs => exact discardAll_keys vs c hn
    | one v => exact discardAll_keys [v] c hn
    | self => exact absurd rfl ha
  constructor
  · intro v
    rw [← Bool.not_eq_true, pyMem_iff, pyMem_iff, pyMem_iff]
    change v.key ∈ (c.differenceUpdate a).keys ↔ _
    rw [hk, List.mem_filter]
    simp [keys]
  · have hn' : (c.differenceUpdate a).keys.Nodup := reachable_nodup (.step (.differenceUpdate a) h)
    have : (c.differenceUpdate a).inner.length = (c.differenceUpdate a).keys.length := by simp [keys]
    rw [this, ← List.toFinset_card_of_nodup hn', hk]
    congr 1
    ext x
    simp [keys]

/-- C02, negative: `c.difference_update(c)` removes only every second element. So for *every* reachable
collection with at least two elements it does not yield the empty set. -/
theorem C02_self_difference_violation (c : IC) (h : Reachable c) (h2 : 2 ≤ c.inner.length) :
    (c.differenceUpdate .self).inner ≠ [] ∧
    (c.differenceUpdate .self).keys = Spec.everyOther c.keys := by
  have hk : (c.differenceUpdate .self).keys = Spec.everyOther c.keys := by
    have := discardSelf_keys (c.inner.length + 1) 0 c (reachable_nodup h) (by omega)
    simpa [differenceUpdate] using this
  refine ⟨?_, hk⟩
  intro he
  have hl : 2 ≤ c.keys.length := by simpa [keys] using h2
  rw [keys, he] at hk
  match hc : c.keys, hl with
  | a :: b :: r, _ => rw [hc] at hk; simp [Spec.everyOther] at hk

/-- C02 (single operations): `add` that does not raise inserts exactly its argument, `discard` and `remove` take out exactly their
argument, `clear` empties, `pop` takes out the entry that was listed last (and returns it), and raises on an empty collection only. -/
theorem C02_single_operations (c : IC) (h : Reachable c) :
    (∀ v, (c.step (.add v)).2 = none → ∀ w, pyMem w (c.step (.add v)).1.inner = true ↔ (pyMem w c.inner = true ∨ pyEq w v = true)) ∧
    (∀ v w, pyMem w (c.step (.discard v)).1.inner = true ↔ (pyMem w c.inner = true ∧ pyEq w v = false)) ∧
    (∀ v, c.step (.remove v) = c.step (.discard v)) ∧ (∀ v, (c.step (.discard v)).2 = none) ∧
    (c.step .clear).1.inner = [] ∧ (c.step .clear).2 = none ∧
    (c.inner = [] → c.step .pop = (c, some .indexError)) ∧
    (c.inner ≠ [] → ∃ v, c.pop.2 = .ok v ∧ c.inner = (c.step .pop).1.inner ++ [v] ∧ (c.step .pop).2 = none) := by
  refine ⟨?_, ?_, fun _ => rfl, fun _ => rfl, rfl, rfl, ?_, ?_⟩
  · intro v hok w
    have hk := add_keys_ok c v hok
    rw [pyMem_iff, pyMem_iff]
    change w.key ∈ (c.add v).1.keys ↔ _
    rw [hk]
    simp only [pyEq, beq_iff_eq]
    change _ ↔ w.key ∈ c.keys ∨ _
    split
    · rename_i hv
      constructor
      · exact Or.inl
      · rintro (h | h)
        · exact h
        · rw [h]; exact hv
    · simp
  · intro v w
    rw [pyMem_iff, pyMem_iff]
    change w.key ∈ (c.discard v).keys ↔ w.key ∈ c.keys ∧ _
    rw [discard_keys, (reachable_nodup h).mem_erase_iff]
    simp [pyEq, and_comm]
  · intro he
    simp [step, pop, he]
  · intro hne
    have := List.dropLast_append_getLast hne
    refine ⟨c.inner.getLast hne, ?_, ?_, ?_⟩ <;> simp [step, pop, List.getLast?_eq_some_getLast hne, this]

/-- C02 (constructor), for names only or numbers only: the collection holds exactly the given indexes, in ascending order. -/
theorem C02_constructor_partial (data : List Val)
    (hd : (∀ v ∈ data, v.base.kind = .str) ∨ (∀ v ∈ data, v.base.kind ≠ .str)) :
    (∀ w, pyMem w (mk' data).inner = true ↔ pyMem w data = true) ∧
    (mk' data).inner.Pairwise (fun v w => Base.le v.base w.base = true) := by
  have hkeys : (coerce data).map Base.key = data.map Val.key := by
    unfold coerce
    split
    · rename_i hs
      rcases hd with hd | hd
      · rw [List.map_map]
        apply List.map_congr_left
        intro v hv
        have := hd v hv
        rcases v with ⟨_, b⟩
        cases b <;> simp_all [Base.kind, Base.toStr, Base.key, Val.key]
      · simp only [List.any_eq_true, beq_iff_eq] at hs
        obtain ⟨v, hv, h⟩ := hs
        exact absurd h (hd v hv)
    · split
      · rename_i hs _
        rw [List.map_map]
        apply List.map_congr_left
        intro v hv
        rcases v with ⟨_, b⟩
        cases b <;> rfl
      · rw [List.map_map]; rfl
  rw [mk'_inner]
  constructor
  · intro w
    rw [pyMem_iff, pyMem_iff]
    have h1 : (npUnique data).map Val.key = (sortBy Base.le (uniq (coerce data))).map Base.key := by
      unfold npUnique; rw [List.map_map]; rfl
    rw [h1, (List.Perm.map Base.key (sortBy_perm _ _)).mem_iff, mem_uniq_key, hkeys]
  · unfold npUnique
    rw [List.pairwise_map]
    apply sortBy_sorted
    · intro a b
      cases a <;> cases b <;> simp [Base.le, Base.key]
      all_goals first | exact String.le_total _ _ | omega
    · intro a b c
      cases a <;> cases b <;> cases c <;> simp [Base.le, Base.key]
      all_goals first | exact String.le_trans | omega

/-- C02 (constructor), negative: given names and numbers together, the numbers are not in the collection (numpy turns them into
strings). -/
theorem C02_mixed_constructor_violation (data : List Val) (hs : ∃ v ∈ data, v.base.kind = .str) (w : Val) (hw : w.base.kind ≠ .str) :
    pyMem w (mk' data).inner = false := by
  rw [← Bool.not_eq_true, pyMem_iff, mk'_inner]
  have h1 : (npUnique data).map Val.key = (sortBy Base.le (uniq (coerce data))).map Base.key := by
    unfold npUnique; rw [List.map_map]; rfl
  rw [h1, (List.Perm.map Base.key (sortBy_perm _ _)).mem_iff, mem_uniq_key]
  unfold coerce
  rw [if_pos (by simpa using hs)]
  rcases w with ⟨_, b⟩
  cases b <;> simp_all [Base.kind, Base.key, Val.key]

/-- The hypotheses are met by `IndexCollection([5, 2, 9])` and `update([2, 4])`. -/
example : Reachable (mk' [⟨false, .int 5⟩, ⟨false, .int 2⟩, ⟨false, .int 9⟩]) ∧
    ((mk' [⟨false, .int 5⟩, ⟨false, .int 2⟩, ⟨false, .int 9⟩]).update
      (.many [⟨false, .int 2⟩, ⟨false, .int 4⟩])).2 = none ∧
    2 ≤ (mk' [⟨false, .int 5⟩, ⟨false, .int 2⟩, ⟨false, .int 9⟩]).inner.length :=
  ⟨.construct _, by decide, by decide⟩

/-! ## C03 -/

/-- C03: a successful `update` leaves the existing entries in place and appends the new ones in order of
first occurrence (`eraseDups` keeps first occurrences); in particular every old position keeps its entry. -/
theorem C03_update_appends_in_order (c : IC) (h : Reachable c) (vs : List Val)
    (hok : (c.update (.many vs)).2 = none) :
    (c.update (.many vs)).1.keys = (c.keys ++ vs.map Val.key).eraseDups ∧
    c.inner <+: (c.update (.many vs)).1.inner := by
  refine ⟨addAll_keys_ok vs c (reachable_nodup h) hok, ?_⟩
  clear h
  change c.inner <+: (c.addAll vs).1.inner
  clear hok
  induction vs generalizing c with
  | nil => exact List.prefix_rfl
  | cons v vs ih =>
    have hp : c.inner <+: (c.add v).1.inner := by
      rcases add_inner c v with h1 | ⟨h1, _⟩
      · rw [h1]
      · rw [h1]; exact List.prefix_append _ _
    unfold addAll
    split
    · rename_i c' he; rw [he] at hp; exact hp.trans (ih c')
    · rename_i c' e he; rw [he] at hp; exact hp

/-- C03: `difference_update` with a separate argument keeps the survivors in their order. -/
theorem C03_difference_keeps_order (c : IC) (h : Reachable c) (vs : List Val) :
    (c.differenceUpdate (.many vs)).keys = c.keys.filter (fun k => decide (k ∉ vs.map Val.key)) :=
  discardAll_keys vs c (reachable_nodup h)

/-- C03: `pop` removes and returns the last listed entry, so right after adding a new index it gives that
index back and restores the collection. -/
theorem C03_pop_undoes_add (c : IC) (v : Val) (hnew : pyMem v c.inner = false) (hok : (c.add v).2 = none) :
    (c.add v).1.pop = ({ c with ety := (c.add v).1.ety }, .ok v.item) := by
  have hk : (c.add v).1.inner = c.inner ++ [v.item] := by
    rcases add_inner c v with h1 | ⟨h1, _⟩
    · exfalso
      have := add_keys_ok c v hok
      rw [if_neg] at this
      · simp [keys, h1] at this
      · intro hm; rw [← Bool.not_eq_true, pyMem_iff] at hnew; exact hnew hm
    · exact h1
  simp [pop, hk]

example : pyMem ⟨false, .int 4⟩ (mk' [⟨false, .int 5⟩]).inner = false ∧
    ((mk' [⟨false, .int 5⟩]).add ⟨false, .int 4⟩).2 = none := by decide

/-! ## C04 -/

/-- C04: every element of a reachable collection has the collection's element type (numpy scalars after
`.item()`). -/
theorem C04_one_element_type (c : IC) (h : Reachable c) (v : Val) (hv : v ∈ c.inner) :
    ∃ t, c.ety = some t ∧ isInstance v.item t = true :=
  reachable_wellTyped h v hv

/-- C04: once fixed, the element type never changes, whatever is called. -/
theorem C04_element_type_is_fixed (c : IC) (op : Op) (t : Ty) (ht : c.ety = some t) :
    (c.step op).1.ety = some t := by
  have hadd : ∀ (c : IC) v, c.ety = some t → (c.add v).1.ety = some t := by
    intro c v h; rw [add_ety, h]
  have hall : ∀ (vs : List Val) (c : IC), c.ety = some t → (c.addAll vs).1.ety = some t := by
    intro vs
    induction vs with
    | nil => intro c h; exact h
    | cons v vs ih =>
      intro c h
      have := hadd c v h
      unfold addAll
      split
      · rename_i c' he; rw [he] at this; exact ih _ this
      · rename_i c' e he; rw [he] at this; exact this
  have hself : ∀ (f i : Nat) (c : IC), c.ety = some t → (addSelf f i c).1.ety = some t := by
    intro f
    induction f with
    | zero => intro i c h; exact h
    | succ f ih =>
      intro i c h
      unfold addSelf
      split
      · exact h
      · rename_i v _
        have := hadd c v h
        split
        · rename_i c' he; rw [he] at this; exact ih _ _ this
        · rename_i c' e he; rw [he] at this; exact this
  have hdall : ∀ (vs : List Val) (c : IC), c.ety = some t → (c.discardAll vs).ety = some t := by
    intro vs
    induction vs with
    | nil => intro c h; exact h
    | cons v vs ih => intro c h; exact ih _ (by simpa using h)
  have hdself : ∀ (f i : Nat) (c : IC), c.ety = some t → (discardSelf f i c).ety = some t := by
    intro f
    induction f with
    | zero => intro i c h; exact h
    | succ f ih =>
      intro i c h
      unfold discardSelf
      split
      · exact h
      · exact ih _ _ (by simpa using h)
  cases op with
  | add v => exact hadd c v ht
  | discard v => simpa [step] using ht
  | remove v => simpa [step] using ht
  | update a => cases a <;> [exact hall _ c ht; exact hall _ c ht; exact hself _ _ c ht]
  | differenceUpdate a => cases a <;> [exact hdall _ c ht; exact hdall _ c ht; exact hdself _ _ c ht]
  | pop => simp only [step, pop]; cases c.inner.getLast? <;> exact ht
  | clear => exact ht

/-- C04: with a known element type, `add` raises exactly for a value of another type, and always
TypeError; the contents are then unchanged. -/
theorem C04_add_rejects_exactly_other_types (c : IC) (t : Ty) (ht : c.ety = some t) (v : Val) :
    ((c.add v).2 = none ↔ isInstance v.item t = true) ∧
    (∀ e, (c.add v).2 = some e → e = .typeError ∧ (c.add v).1 = c) := by
  constructor
  · unfold add
    rw [ht]
    simp only [ht]
    split
    · rename_i h; simp at h; simp [h]
    · rename_i h; simp at h; split <;> simp [h]
  · intro e he
    obtain ⟨h1, h2⟩ := add_err c v he
    refine ⟨h1, ?_⟩
    have h3 := add_ety c v
    rw [ht] at h3
    cases hc : (c.add v).1
    cases c
    simp_all

/-- C04: an `update` that raises has applied exactly the elements before the offending one. -/
theorem C04_failed_update_applies_a_prefix (vs : List Val) : ∀ (c : IC) (e : PyErr),
    (c.update (.many vs)).2 = some e →
    ∃ done bad rest, vs = done ++ bad :: rest ∧ (c.update (.many done)).2 = none ∧
      ((c.update (.many done)).1.add bad).2 = some e ∧
      (c.update (.many vs)).1.inner = (c.update (.many done)).1.inner := by
  change ∀ (c : IC) (e : PyErr), (c.addAll vs).2 = some e →
    ∃ done bad rest, vs = done ++ bad :: rest ∧ (c.addAll done).2 = none ∧
      ((c.addAll done).1.add bad).2 = some e ∧ (c.addAll vs).1.inner = (c.addAll done).1.inner
  induction vs with
  | nil => intro c e h; simp [addAll] at h
  | cons v vs ih =>
    intro c e h
    cases hr : c.add v with
    | mk c' o =>
      cases o with
      | none =>
        have hstep : c.addAll (v :: vs) = c'.addAll vs := by simp [addAll, hr]
        rw [hstep] at h ⊢
        obtain ⟨done, bad, rest, h1, h2, h3, h4⟩ := ih c' e h
        refine ⟨v :: done, bad, rest, by simp [h1], ?_, ?_, ?_⟩ <;> simp [addAll, hr, h2, h3, h4]
      | some e' =>
        have hstep : c.addAll (v :: vs) = (c', some e') := by simp [addAll, hr]
        rw [hstep] at h ⊢
        simp at h; subst h
        refine ⟨[], v, vs, rfl, rfl, by simp [addAll, hr], ?_⟩
        have := (add_err c v (e := e') (by rw [hr])).2
        rw [hr] at this
        simpa [addAll] using this

example : ((mk' [⟨false, .int 5⟩]).update
    (.many [⟨false, .int 4⟩, ⟨false, .str "x"⟩, ⟨false, .int 6⟩])).2 = some .typeError := by decide

/-- C04, finding: adding a numpy integer to a collection created empty raises TypeError, and from then on
that collection refuses every index: its element type is a numpy type while each argument is converted to a
plain Python object before the check. -/
theorem C04_empty_collection_is_poisoned_by_numpy_index (n : Int) :
    (IC.empty.add ⟨true, .int n⟩).2 = some .typeError ∧
    ∀ v, ((IC.empty.add ⟨true, .int n⟩).1.add v).2 = some .typeError := by
  constructor
  · rfl
  · intro v; rfl

end Alipy

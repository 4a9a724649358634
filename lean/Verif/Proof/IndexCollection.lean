import Verif.Model.IndexCollection
import Verif.Proof.Sort
import Mathlib.Data.List.Dedup
import Mathlib.Data.List.Sort
import Verif.Spec.Lists

/-! Helper lemmas about the `IndexCollection` model. -/
namespace Alipy
namespace IC

@[simp] theorem key_item (v : Val) : v.item.key = v.key := rfl

theorem pyMem_iff (v : Val) (l : List Val) : pyMem v l = true ↔ v.key ∈ l.map Val.key := by
  simp only [pyMem, pyEq, List.any_eq_true, beq_iff_eq, List.mem_map]
  constructor
  · rintro ⟨x, h, e⟩; exact ⟨x, h, e.symm⟩
  · rintro ⟨x, h, e⟩; exact ⟨x, h, e.symm⟩

theorem eraseFirst_keys (v : Val) (l : List Val) :
    (eraseFirst v l).map Val.key = (l.map Val.key).erase v.key := by
  induction l with
  | nil => rfl
  | cons w ws ih =>
    by_cases h : v.key = w.key
    · simp [eraseFirst, pyEq, h]
    · have h' : ¬ w.key = v.key := fun e => h e.symm
      simp [eraseFirst, pyEq, h, h', ih]

theorem discard_keys (c : IC) (v : Val) : (c.discard v).keys = c.keys.erase v.key := by
  unfold discard
  split
  · simp [keys, eraseFirst_keys]
  · rename_i h
    rw [pyMem_iff] at h
    simp [keys, List.erase_of_not_mem h]

@[simp] theorem discard_ety (c : IC) (v : Val) : (c.discard v).ety = c.ety := by
  unfold discard; split <;> rfl

theorem add_keys_ok (c : IC) (v : Val) (h : (c.add v).2 = none) :
    (c.add v).1.keys = if v.key ∈ c.keys then c.keys else c.keys ++ [v.key] := by
  unfold add at h ⊢
  cases he : c.ety <;> simp only [he] at h ⊢
  · split at h
    · simp at h
    · rename_i hi
      simp only [hi]
      by_cases hm : pyMem v.item c.inner = true
      · have := (pyMem_iff _ _).1 hm
        simp only [hm]; simp [keys] at this ⊢; simp [this]
      · have h2 := hm; rw [pyMem_iff] at h2
        simp [hm, keys] at h2 ⊢; simpa using h2
  · split at h
    · simp at h
    · rename_i hi
      simp only [hi]
      by_cases hm : pyMem v.item c.inner = true
      · have := (pyMem_iff _ _).1 hm
        simp only [hm]; simp [keys] at this ⊢; simp [this]
      · have h2 := hm; rw [pyMem_iff] at h2
        simp [hm, keys] at h2 ⊢; simpa using h2

theorem add_err (c : IC) (v : Val) {e : PyErr} (h : (c.add v).2 = some e) :
    e = .typeError ∧ (c.add v).1.inner = c.inner := by
  unfold add at h ⊢
  cases he : c.ety <;> simp only [he] at h ⊢
  · split at h
    · rename_i hi; simp at h; simp [hi, h]
    · split at h <;> simp at h
  · split at h
    · rename_i hi; simp at h; simp [hi, h]
    · split at h <;> simp at h

theorem add_keys_nodup (c : IC) (v : Val) (h : c.keys.Nodup) : (c.add v).1.keys.Nodup := by
  cases hr : (c.add v).2 with
  | none =>
    rw [add_keys_ok c v hr]
    split
    · exact h
    · rename_i hn
      rw [List.nodup_append]
      refine ⟨h, by simp, ?_⟩
      intro a ha b hb hab
      simp at hb; subst hb; subst hab; exact hn ha
  | some e =>
    have := (add_err c v hr).2
    simpa [keys, this] using h

theorem discard_keys_nodup (c : IC) (v : Val) (h : c.keys.Nodup) : (c.discard v).keys.Nodup := by
  rw [discard_keys]; exact h.erase _

theorem addAll_keys_nodup (vs : List Val) : ∀ (c : IC), c.keys.Nodup → (c.addAll vs).1.keys.Nodup := by
  induction vs with
  | nil => intro c h; exact h
  | cons v vs ih =>
    intro c h
    have h1 := add_keys_nodup c v h
    unfold addAll
    split
    · rename_i c' he; rw [he] at h1; exact ih _ h1
    · rename_i c' e he; rw [he] at h1; exact h1

theorem discardAll_keys (vs : List Val) : ∀ (c : IC), c.keys.Nodup →
    (c.discardAll vs).keys = c.keys.filter (fun k => decide (k ∉ vs.map Val.key)) := by
  induction vs with
  | nil => intro c _; simp [discardAll]
  | cons v vs ih =>
    intro c h
    simp only [discardAll]
    rw [ih _ (discard_keys_nodup c v h), discard_keys, h.erase_eq_filter, List.filter_filter]
    apply List.filter_congr
    intro x _
    simp
    by_cases h1 : x = v.key <;> simp [h1]

theorem addSelf_keys_nodup : ∀ (fuel i : Nat) (c : IC), c.keys.Nodup → (addSelf fuel i c).1.keys.Nodup := by
  intro fuel
  induction fuel with
  | zero => intro i c h; exact h
  | succ fuel ih =>
    intro i c h
    unfold addSelf
    split
    · exact h
    · rename_i v _
      have h1 := add_keys_nodup c v h
      split
      · rename_i c' he; rw [he] at h1; exact ih _ _ h1
      · rename_i c' e he; rw [he] at h1; exact h1

theorem discardSelf_keys_nodup : ∀ (fuel i : Nat) (c : IC), c.keys.Nodup →
    (discardSelf fuel i c).keys.Nodup := by
  intro fuel
  induction fuel with
  | zero => intro i c h; exact h
  | succ fuel ih =>
    intro i c h
    unfold discardSelf
    split
    · exact h
    · exact ih _ _ (discard_keys_nodup c _ h)

theorem discardAll_keys_nodup (vs : List Val) (c : IC) (h : c.keys.Nodup) :
    (c.discardAll vs).keys.Nodup := by
  rw [discardAll_keys vs c h]; exact h.filter _

theorem step_keys_nodup (c : IC) (op : Op) (h : c.keys.Nodup) : (c.step op).1.keys.Nodup := by
  cases op with
  | add v => exact add_keys_nodup c v h
  | discard v => exact discard_keys_nodup c v h
  | remove v => exact discard_keys_nodup c v h
  | update a =>
    cases a with
    | many vs => exact addAll_keys_nodup vs c h
    | one v => exact addAll_keys_nodup [v] c h
    | self => exact addSelf_keys_nodup _ _ c h
  | differenceUpdate a =>
    cases a with
    | many vs => exact discardAll_keys_nodup vs c h
    | one v => exact discardAll_keys_nodup [v] c h
    | self => exact discardSelf_keys_nodup _ _ c h
  | pop =>
    simp only [step, pop]
    cases c.inner.getLast? with
    | none => exact h
    | some v =>
      simp only [keys, List.map_dropLast]
      exact h.sublist (List.dropLast_sublist _)
  | clear => simp [step, clear, keys]

theorem run_keys_nodup (ops : List Op) : ∀ (c : IC), c.keys.Nodup → (c.run ops).keys.Nodup := by
  induction ops with
  | nil => intro c h; exact h
  | cons op ops ih => intro c h; exact ih _ (step_keys_nodup c op h)

theorem mem_uniq_key (l : List Base) : ∀ k, k ∈ (uniq l).map Base.key ↔ k ∈ l.map Base.key := by
  induction l with
  | nil => intro k; simp [uniq]
  | cons b bs ih =>
    intro k
    have := ih k
    simp only [uniq, List.map_cons, List.mem_cons]
    constructor
    · rintro (h | h)
      · exact Or.inl h
      · right; rw [← this]
        simp only [List.mem_map, List.mem_filter] at h ⊢
        obtain ⟨a, ⟨ha, _⟩, hk⟩ := h; exact ⟨a, ha, hk⟩
    · rintro (h | h)
      · exact Or.inl h
      · by_cases hb : k = b.key
        · exact Or.inl hb
        · right; rw [← this] at h
          simp only [List.mem_map, List.mem_filter] at h ⊢
          obtain ⟨a, ha, hk⟩ := h
          refine ⟨a, ⟨ha, ?_⟩, hk⟩
          subst hk; simpa using hb

theorem uniq_nodup (l : List Base) : ((uniq l).map Base.key).Nodup := by
  induction l with
  | nil => simp [uniq]
  | cons b bs ih =>
    simp only [uniq, List.map_cons, List.nodup_cons]
    constructor
    · simp
    · exact ih.sublist (List.Sublist.map _ List.filter_sublist)

theorem npUnique_keys_nodup (data : List Val) : ((npUnique data).map Val.key).Nodup := by
  unfold npUnique
  rw [List.map_map]
  have : (Val.key ∘ fun b => (⟨true, b⟩ : Val)) = Base.key := rfl
  rw [this]
  exact ((sortBy_perm _ _).map Base.key).nodup_iff.2 (uniq_nodup _)

theorem mk'_inner (data : List Val) : (mk' data).inner = npUnique data := by
  unfold mk'
  split
  · rename_i h; simp [empty, h]
  · rename_i h; simp [h]

theorem mk'_keys_nodup (data : List Val) : (mk' data).keys.Nodup := by
  simpa [keys, mk'_inner] using npUnique_keys_nodup data

theorem eraseDups_of_nodup {α : Type} [DecidableEq α] (l : List α) (h : l.Nodup) :
    l.eraseDups = l := by
  induction l with
  | nil => rfl
  | cons a l ih =>
    rw [List.nodup_cons] at h
    have hf : l.filter (fun b => !b == a) = l := by
      rw [List.filter_eq_self]; intro x hx; simp; rintro rfl; exact h.1 hx
    rw [List.eraseDups_cons, hf, ih h.2]

theorem addAll_keys_ok (vs : List Val) : ∀ (c : IC), c.keys.Nodup → (c.addAll vs).2 = none →
    (c.addAll vs).1.keys = (c.keys ++ vs.map Val.key).eraseDups := by
  induction vs with
  | nil =>
    intro c h _
    simp [addAll, eraseDups_of_nodup _ h]
  | cons v vs ih =>
    intro c h he
    have h1 := add_keys_nodup c v h
    unfold addAll at he ⊢
    split at he
    · rename_i c' hc
      have hk := add_keys_ok c v (by rw [hc])
      rw [hc] at h1 hk
      simp only at h1 hk
      rw [ih c' h1 he, hk]
      split
      · rename_i hm
        rw [List.eraseDups_append, List.eraseDups_append]
        congr 2
        simp [List.removeAll, hm]
      · simp
    · simp at he

/-! ### Element types -/

/-- Every element held has the collection's element type (numpy scalars after `.item()`). -/
def WellTyped (c : IC) : Prop := ∀ v ∈ c.inner, ∃ t, c.ety = some t ∧ isInstance v.item t = true

theorem add_ety (c : IC) (v : Val) :
    (c.add v).1.ety = (match c.ety with | none => some v.ty | some t => some t) := by
  unfold add
  cases he : c.ety <;> simp only [he]
  · split
    · rfl
    · split <;> rfl
  · split
    · exact he
    · split
      · exact he
      · rfl

theorem add_inner (c : IC) (v : Val) :
    (c.add v).1.inner = c.inner ∨
    ((c.add v).1.inner = c.inner ++ [v.item] ∧ ∃ t, (c.add v).1.ety = some t ∧ isInstance v.item t = true) := by
  unfold add
  cases he : c.ety <;> simp only [he]
  · split
    · exact Or.inl rfl
    · split
      · exact Or.inl rfl
      · rename_i h1 h2
        right; refine ⟨rfl, _, rfl, ?_⟩; simpa using h1
  · split
    · exact Or.inl rfl
    · split
      · exact Or.inl rfl
      · rename_i h1 h2
        right; refine ⟨rfl, _, rfl, ?_⟩; simpa using h1

theorem item_item (v : Val) : v.item.item = v.item := rfl

theorem add_wellTyped (c : IC) (v : Val) (h : WellTyped c) : WellTyped (c.add v).1 := by
  have hold : ∀ w ∈ c.inner, ∃ t, (c.add v).1.ety = some t ∧ isInstance w.item t = true := by
    intro w hw
    obtain ⟨t, ht, hi⟩ := h w hw
    refine ⟨t, ?_, hi⟩
    rw [add_ety, ht]
  intro w hw
  rcases add_inner c v with h1 | ⟨h1, t, ht, hi⟩
  · rw [h1] at hw; exact hold w hw
  · rw [h1] at hw
    rcases List.mem_append.1 hw with hw | hw
    · exact hold w hw
    · simp at hw; subst hw; exact ⟨t, ht, by rw [item_item]; exact hi⟩

theorem mem_eraseFirst {v w : Val} {l : List Val} (h : w ∈ eraseFirst v l) : w ∈ l := by
  induction l with
  | nil => simp [eraseFirst] at h
  | cons a l ih =>
    unfold eraseFirst at h
    split at h
    · exact List.mem_cons_of_mem _ h
    · rcases List.mem_cons.1 h with h | h
      · subst h; simp
      · exact List.mem_cons_of_mem _ (ih h)

theorem discard_wellTyped (c : IC) (v : Val) (h : WellTyped c) : WellTyped (c.discard v) := by
  unfold discard
  split
  · intro w hw; exact h w (mem_eraseFirst hw)
  · exact h

theorem addAll_wellTyped (vs : List Val) : ∀ c, WellTyped c → WellTyped (addAll c vs).1 := by
  induction vs with
  | nil => intro c h; exact h
  | cons v vs ih =>
    intro c h
    have h1 := add_wellTyped c v h
    unfold addAll
    split
    · rename_i c' he; rw [he] at h1; exact ih _ h1
    · rename_i c' e he; rw [he] at h1; exact h1

theorem addSelf_wellTyped : ∀ (fuel i : Nat) (c : IC), WellTyped c → WellTyped (addSelf fuel i c).1 := by
  intro fuel
  induction fuel with
  | zero => intro i c h; exact h
  | succ fuel ih =>
    intro i c h
    unfold addSelf
    split
    · exact h
    · rename_i v _
      have h1 := add_wellTyped c v h
      split
      · rename_i c' he; rw [he] at h1; exact ih _ _ h1
      · rename_i c' e he; rw [he] at h1; exact h1

theorem discardAll_wellTyped (vs : List Val) : ∀ c, WellTyped c → WellTyped (discardAll c vs) := by
  induction vs with
  | nil => intro c h; exact h
  | cons v vs ih => intro c h; exact ih _ (discard_wellTyped c v h)

theorem discardSelf_wellTyped : ∀ (fuel i : Nat) (c : IC), WellTyped c → WellTyped (discardSelf fuel i c) := by
  intro fuel
  induction fuel with
  | zero => intro i c h; exact h
  | succ fuel ih =>
    intro i c h
    unfold discardSelf
    split
    · exact h
    · exact ih _ _ (discard_wellTyped c _ h)

theorem step_wellTyped (c : IC) (op : Op) (h : WellTyped c) : WellTyped (c.step op).1 := by
  cases op with
  | add v => exact add_wellTyped c v h
  | discard v => exact discard_wellTyped c v h
  | remove v => exact discard_wellTyped c v h
  | update a =>
    cases a with
    | many vs => exact addAll_wellTyped vs c h
    | one v => exact addAll_wellTyped [v] c h
    | self => exact addSelf_wellTyped _ _ c h
  | differenceUpdate a =>
    cases a with
    | many vs => exact discardAll_wellTyped vs c h
    | one v => exact discardAll_wellTyped [v] c h
    | self => exact discardSelf_wellTyped _ _ c h
  | pop =>
    simp only [step, pop]
    cases hl : c.inner.getLast? with
    | none => exact h
    | some v => intro w hw; exact h w ((List.dropLast_sublist _).subset hw)
  | clear => intro w hw; simp [step, clear] at hw

theorem coerce_kind (data : List Val) : ∃ k, ∀ b ∈ coerce data, b.kind = k := by
  unfold coerce
  split
  · exact ⟨.str, by intro b hb; simp at hb; obtain ⟨a, _, rfl⟩ := hb; rfl⟩
  · rename_i hs
    split
    · refine ⟨.int, ?_⟩
      intro b hb
      simp only [List.mem_map] at hb
      obtain ⟨a, ha, rfl⟩ := hb
      simp at hs
      have := hs a ha
      rcases a with ⟨np, _ | _ | _⟩ <;> simp_all [Base.key, Base.kind]
    · rename_i hi
      refine ⟨.bool, ?_⟩
      intro b hb
      simp only [List.mem_map] at hb
      obtain ⟨a, ha, rfl⟩ := hb
      simp at hs hi
      have h1 := hs a ha
      have h2 := hi a ha
      rcases a with ⟨np, _ | _ | _⟩ <;> simp_all [Base.kind]

theorem mem_uniq {b : Base} {l : List Base} (h : b ∈ uniq l) : b ∈ l := by
  induction l with
  | nil => simp [uniq] at h
  | cons a l ih =>
    simp only [uniq, List.mem_cons, List.mem_filter] at h
    rcases h with h | h
    · subst h; simp
    · exact List.mem_cons_of_mem _ (ih h.1)

theorem npUnique_kind (data : List Val) : ∃ k, ∀ v ∈ npUnique data, v.np = true ∧ v.base.kind = k := by
  obtain ⟨k, hk⟩ := coerce_kind data
  refine ⟨k, ?_⟩
  intro v hv
  simp only [npUnique, List.mem_map] at hv
  obtain ⟨b, hb, rfl⟩ := hv
  exact ⟨rfl, hk b (mem_uniq ((sortBy_perm _ _).mem_iff.1 hb))⟩

theorem isInstance_same {v : Val} {k : Kind} (h : v.base.kind = k) : isInstance v.item ⟨false, k⟩ = true := by
  simp [isInstance, Val.item, h]

theorem mk'_wellTyped (data : List Val) : WellTyped (mk' data) := by
  obtain ⟨k, hk⟩ := npUnique_kind data
  unfold mk'
  split
  · intro v hv; simp [empty] at hv
  · rename_i v vs h
    intro w hw
    rw [h] at hk
    refine ⟨_, rfl, ?_⟩
    have h1 := (hk w hw).2
    have h2 := (hk v (by simp)).2
    have : v.item.ty = ⟨false, k⟩ := by simp [Val.item, Val.ty, h2]
    rw [this]
    exact isInstance_same h1

theorem reachable_nodup {c : IC} (h : Reachable c) : c.keys.Nodup := by
  induction h with
  | empty => simp [keys, empty]
  | construct data => exact mk'_keys_nodup data
  | copy _ ih => unfold copy; split <;> [simp [keys, empty]; exact ih]
  | step op _ ih => exact step_keys_nodup _ op ih

theorem reachable_wellTyped {c : IC} (h : Reachable c) : WellTyped c := by
  induction h with
  | empty => intro v hv; simp [empty] at hv
  | construct data => exact mk'_wellTyped data
  | copy _ ih => unfold copy; split <;> [(intro v hv; simp [empty] at hv); exact ih]
  | step op _ ih => exact step_wellTyped _ op ih

theorem add_present (c : IC) (h : WellTyped c) {v : Val} (hv : v ∈ c.inner) : c.add v = (c, none) := by
  obtain ⟨t, ht, hi⟩ := h v hv
  have hm : pyMem v.item c.inner = true := by
    rw [pyMem_iff]; exact List.mem_map.2 ⟨v, hv, rfl⟩
  unfold add
  rw [ht]
  simp [ht, hi, hm]

theorem addSelf_eq : ∀ (fuel i : Nat) (c : IC), WellTyped c → addSelf fuel i c = (c, none) := by
  intro fuel
  induction fuel with
  | zero => intro i c h; rfl
  | succ fuel ih =>
    intro i c h
    unfold addSelf
    split
    · rfl
    · rename_i v hv
      rw [add_present c h (List.mem_of_getElem? hv)]
      exact ih _ _ h

theorem erase_getElem_of_nodup {α : Type} [DecidableEq α] : ∀ (l : List α) (i : Nat) (h : i < l.length), l.Nodup →
    l.erase l[i] = l.take i ++ l.drop (i + 1) := by
  intro l
  induction l with
  | nil => intro i h; simp at h
  | cons a l ih =>
    intro i h hn
    rw [List.nodup_cons] at hn
    cases i with
    | zero => simp
    | succ i =>
      have hi : i < l.length := by simpa using h
      have hne : ¬ a = l[i] := by rintro rfl; exact hn.1 (List.getElem_mem _)
      simp [hne, ih i hi hn.2]

theorem discardSelf_keys : ∀ (fuel i : Nat) (c : IC), c.keys.Nodup → c.inner.length < fuel + i →
    (discardSelf fuel i c).keys = c.keys.take i ++ Spec.everyOther (c.keys.drop i) := by
  intro fuel
  induction fuel with
  | zero =>
    intro i c h hf
    have : c.keys.length ≤ i := by simp [keys]; omega
    simp [discardSelf, List.take_of_length_le this, List.drop_of_length_le this, Spec.everyOther]
  | succ fuel ih =>
    intro i c h hf
    unfold discardSelf
    split
    · rename_i hn
      have : c.keys.length ≤ i := by
        simpa [keys] using hn
      simp [List.take_of_length_le this, List.drop_of_length_le this, Spec.everyOther]
    · rename_i v hv
      have hi : i < c.inner.length := by
        rw [List.getElem?_eq_some_iff] at hv; exact hv.1
      have hik : i < c.keys.length := by simpa [keys] using hi
      have hvk : c.keys[i] = v.key := by
        rw [List.getElem?_eq_some_iff] at hv
        obtain ⟨_, e⟩ := hv
        simp [keys, e]
      have hk : (c.discard v).keys = c.keys.take i ++ c.keys.drop (i+1) := by
        rw [discard_keys, ← hvk]
        exact erase_getElem_of_nodup _ _ hik h
      have hlen : (c.discard v).inner.length < fuel + (i+1) := by
        have : (c.discard v).keys.length = c.keys.length - 1 := by rw [hk]; simp; omega
        simp [keys] at this; omega
      rw [ih (i+1) _ (discard_keys_nodup c v h) hlen, hk]
      rcases Nat.lt_or_ge (i+1) c.keys.length with hlt | hge
      · have e1 : c.keys.drop i = c.keys[i] :: c.keys[i+1] :: c.keys.drop (i+2) := by
          rw [List.drop_eq_getElem_cons hik, List.drop_eq_getElem_cons hlt]
        have e2 : c.keys.drop (i+1) = c.keys[i+1] :: c.keys.drop (i+2) := by
          rw [List.drop_eq_getElem_cons hlt]
        have el : (c.keys.take i).length = i := by simp; omega
        have e3 : List.take 1 (List.drop (i + 1) c.keys) = [c.keys[i+1]] := by rw [e2]; rfl
        rw [e1]
        simp only [Spec.everyOther]
        rw [List.take_append, List.drop_append, el]
        simp [List.take_of_length_le (show (c.keys.take i).length ≤ i+1 by omega),
          List.drop_of_length_le (show (c.keys.take i).length ≤ i+1 by omega), e3]
      · have e0 : c.keys.drop i = [c.keys[i]] := by
          rw [List.drop_eq_getElem_cons hik, List.drop_of_length_le hge]
        have e2 : c.keys.drop (i+1) = [] := List.drop_of_length_le hge
        rw [e0, e2]
        simp [Spec.everyOther, List.drop_of_length_le (show (c.keys.take i).length ≤ i+1 by simp),
          List.take_take]

end IC
end Alipy

import Verif.Model.MultiLabelTools
import Verif.Spec.MultiLabel
import Mathlib.Data.List.Nodup
import Mathlib.Data.List.Perm.Subperm
import Mathlib.Tactic.Tauto

namespace Alipy
open Spec

theorem mem_intRange (n x : Int) : x ∈ intRange n ↔ 0 ≤ x ∧ x < n := by
  simp only [intRange, List.mem_map, List.mem_range]
  constructor
  · rintro ⟨i, hi, rfl⟩; omega
  · intro h; exact ⟨x.toNat, by omega, by omega⟩

theorem intRange_nodup (n : Int) : (intRange n).Nodup := by
  unfold intRange
  apply List.Nodup.map _ List.nodup_range
  intro i j h; simp only at h; omega

theorem intRange_length (n : Int) : (intRange n).length = n.toNat := by simp [intRange]

theorem mem_setUnion {α : Type} [DecidableEq α] (ls : List α) : ∀ (s : List α) (x : α),
    x ∈ setUnion s ls ↔ x ∈ s ∨ x ∈ ls := by
  induction ls with
  | nil => intro s x; simp [setUnion]
  | cons l r ih =>
    intro s x
    unfold setUnion
    split
    · rename_i h
      rw [ih]
      constructor
      · rintro (h | h) <;> simp [h]
      · rintro (h' | h')
        · exact .inl h'
        · rcases List.mem_cons.1 h' with rfl | h'
          · exact .inl h
          · exact .inr h'
    · rw [ih]; simp only [List.mem_append, List.mem_cons, List.not_mem_nil, or_false]; tauto

theorem setUnion_nodup {α : Type} [DecidableEq α] (ls : List α) : ∀ (s : List α), s.Nodup → (setUnion s ls).Nodup := by
  induction ls with
  | nil => intro s h; exact h
  | cons l r ih =>
    intro s h
    unfold setUnion
    split
    · exact ih _ h
    · rename_i hl
      exact ih _ (List.nodup_append.2 ⟨h, by simp, by
        intro a ha b hb
        rw [List.mem_singleton] at hb
        subst hb; rintro rfl; exact hl ha⟩)

theorem setUnion_of_nodup {α : Type} [DecidableEq α] (ls : List α) : ∀ (s : List α), (s ++ ls).Nodup →
    setUnion s ls = s ++ ls := by
  induction ls with
  | nil => intro s _; simp [setUnion]
  | cons l r ih =>
    intro s h
    have hl : l ∉ s := by
      intro hl
      rw [List.nodup_append] at h
      exact h.2.2 l hl l (by simp) rfl
    unfold setUnion
    rw [if_neg hl, ih _ (by simpa using h)]
    simp

/-! ### check -/

theorem allTuples_map (ixs : List Ix) : allTuples (ixs.map Item.tup) = some ixs := by
  induction ixs with
  | nil => rfl
  | cons a r ih => simp [allTuples, ih]

theorem allTuples_some : ∀ {items : List Item} {ixs : List Ix}, allTuples items = some ixs → items = ixs.map Item.tup
  | [], ixs, h => by simp [allTuples] at h; subst h; rfl
  | .other :: _, ixs, h => by simp [allTuples] at h
  | .tup ix :: r, ixs, h => by
    simp only [allTuples, Option.map_eq_some_iff] at h
    obtain ⟨l, hl, rfl⟩ := h
    rw [allTuples_some hl]; rfl

theorem checkIndex_ok_iff (items : List Item) (ixs : List Ix) :
    checkIndexMultilabel items = .ok ixs ↔ items ≠ [] ∧ items = ixs.map Item.tup := by
  unfold checkIndexMultilabel
  cases items with
  | nil => simp
  | cons a r =>
    simp only
    constructor
    · intro h
      split at h
      · simp at h
      · rename_i l hl
        simp only [Except.ok.injEq] at h
        subst h
        exact ⟨by simp, allTuples_some hl⟩
    · rintro ⟨_, h⟩
      rw [h, allTuples_map]

theorem checkIndex_err (items : List Item) (e : PyErr) (h : checkIndexMultilabel items = .error e) : e = .typeError := by
  unfold checkIndexMultilabel at h
  split at h
  · simp at h; exact h.symm
  · split at h <;> simp at h; exact h.symm

/-! ### flatten -/

/-- Everything flattened is in range. -/
theorem flatten1_range {L : Int} {ix : Ix} {ps : List (Int × Int)} (h : flatten1 L ix = .ok ps) :
    ∀ p ∈ ps, 0 ≤ p.2 ∧ p.2 < L := by
  unfold flatten1 at h
  split at h
  · simp at h
  · simp only [Except.ok.injEq] at h; subst h
    intro p hp
    obtain ⟨i, hi, rfl⟩ := List.mem_map.1 hp
    exact (mem_intRange _ _).1 hi
  · split at h
    · rename_i hr
      simp only [Except.ok.injEq] at h; subst h
      intro p hp; simp at hp; subst hp; exact hr
    · simp at h
  · split at h
    · rename_i hr
      simp only [Except.ok.injEq] at h; subst h
      intro p hp; simp at hp; subst hp; exact hr
    · simp at h
  · simp only [Except.ok.injEq] at h; subst h
    intro p hp
    obtain ⟨i, hi, rfl⟩ := List.mem_map.1 hp
    simpa using (List.mem_filter.1 hi).2
  · simp only [Except.ok.injEq] at h; subst h
    intro p hp
    obtain ⟨i, hi, rfl⟩ := List.mem_map.1 hp
    simpa using (List.mem_filter.1 hi).2

theorem flattenLoop_range {L : Int} : ∀ {ixs : List Ix} {ps : List (Int × Int)}, flattenLoop L ixs = .ok ps →
    ∀ p ∈ ps, 0 ≤ p.2 ∧ p.2 < L
  | [], ps, h => by simp [flattenLoop] at h; subst h; simp
  | ix :: r, ps, h => by
    simp only [flattenLoop] at h
    split at h
    · simp at h
    · rename_i qs hq
      split at h
      · simp at h
      · rename_i rs hr
        simp only [Except.ok.injEq] at h; subst h
        intro p hp
        rcases List.mem_append.1 hp with hp | hp
        · exact flatten1_range hq p hp
        · exact flattenLoop_range hr p hp

/-- An index the flattening accepts: length 1 or 2, a scalar label within the label set. -/
theorem flatten1_ok {L : Int} {ix : Ix} (hlen : (∃ e, ix = .all e) ∨ ∃ e s, ix = .pair e s)
    (hs : ∀ e l, ix = .pair e (.scal l) → 0 ≤ l ∧ l < L) :
    ∃ ps, flatten1 L ix = .ok ps ∧ ∀ p, p ∈ ps ↔ (0 ≤ p.2 ∧ p.2 < L) ∧ Denotes L ix p := by
  rcases hlen with ⟨e, rfl⟩ | ⟨e, s, rfl⟩
  · refine ⟨_, rfl, ?_⟩
    rintro ⟨a, b⟩
    simp only [List.mem_map, mem_intRange, Denotes, Prod.mk.injEq]
    constructor
    · rintro ⟨i, hi, rfl, rfl⟩; exact ⟨hi, rfl, hi.1, hi.2⟩
    · rintro ⟨h, rfl, -, -⟩; exact ⟨b, h, rfl, rfl⟩
  · cases s with
    | scal l =>
      have := hs e l rfl
      refine ⟨[(e, l)], by simp [flatten1, this], ?_⟩
      rintro ⟨a, b⟩
      simp only [List.mem_singleton, Denotes, Prod.mk.injEq]
      constructor
      · rintro ⟨rfl, rfl⟩; exact ⟨this, rfl, rfl⟩
      · rintro ⟨-, h⟩; exact h
    | iter hh ls =>
      refine ⟨_, rfl, ?_⟩
      rintro ⟨a, b⟩
      simp only [List.mem_map, List.mem_filter, decide_eq_true_eq, Denotes, Prod.mk.injEq]
      constructor
      · rintro ⟨i, ⟨hi, h1⟩, rfl, rfl⟩; exact ⟨h1, rfl, hi⟩
      · rintro ⟨h, rfl, hb⟩; exact ⟨b, ⟨hb, h⟩, rfl, rfl⟩

theorem flattenLoop_ok {L : Int} : ∀ {ixs : List Ix}, (∀ ix ∈ ixs, (∃ e, ix = .all e) ∨ ∃ e s, ix = .pair e s) →
    (∀ ix ∈ ixs, ∀ e l, ix = .pair e (.scal l) → 0 ≤ l ∧ l < L) →
    ∃ ps, flattenLoop L ixs = .ok ps ∧ ∀ p, p ∈ ps ↔ (0 ≤ p.2 ∧ p.2 < L) ∧ DenotesAny L ixs p
  | [], _, _ => ⟨[], rfl, by simp [DenotesAny]⟩
  | ix :: r, h1, h2 => by
    obtain ⟨ps, hps, hmem⟩ := flatten1_ok (h1 ix (by simp)) (h2 ix (by simp))
    obtain ⟨qs, hqs, hmem'⟩ := flattenLoop_ok (ixs := r) (fun i hi => h1 i (by simp [hi])) (fun i hi => h2 i (by simp [hi]))
    refine ⟨ps ++ qs, by simp [flattenLoop, hps, hqs], ?_⟩
    intro p
    simp only [List.mem_append, hmem, hmem', DenotesAny, List.mem_cons, exists_eq_or_imp]
    tauto

theorem legal_shape {L : Int} {ix : Ix} (h : Legal L ix) : (∃ e, ix = .all e) ∨ ∃ e s, ix = .pair e s := by
  cases ix with
  | nil => exact absurd h (by simp [Legal])
  | all e => exact .inl ⟨e, rfl⟩
  | pair e s => exact .inr ⟨e, s, rfl⟩
  | longer e s => exact absurd h (by simp [Legal])

theorem legal_scal {L : Int} {ix : Ix} (h : Legal L ix) : ∀ e l, ix = .pair e (.scal l) → 0 ≤ l ∧ l < L := by
  rintro e l rfl; exact h

theorem legal_range {L : Int} {ix : Ix} (h : Legal L ix) {p : Int × Int} (hp : Denotes L ix p) : 0 ≤ p.2 ∧ p.2 < L := by
  cases ix with
  | nil => exact absurd h (by simp [Legal])
  | all e => exact ⟨hp.2.1, hp.2.2⟩
  | pair e s =>
    cases s with
    | scal l => simp only [Denotes] at hp; subst hp; exact h
    | iter b ls => exact h _ hp.2
  | longer e s => exact absurd h (by simp [Legal])

/-- Flattening legal indexes gives exactly the denoted pairs. -/
theorem flattenLoop_legal {L : Int} {ixs : List Ix} (h : ∀ ix ∈ ixs, Legal L ix) :
    ∃ ps, flattenLoop L ixs = .ok ps ∧ ∀ p, p ∈ ps ↔ DenotesAny L ixs p := by
  obtain ⟨ps, h1, h2⟩ := flattenLoop_ok (L := L) (ixs := ixs) (fun i hi => legal_shape (h i hi)) (fun i hi => legal_scal (h i hi))
  refine ⟨ps, h1, fun p => ?_⟩
  rw [h2]
  constructor
  · exact And.right
  · intro hp
    obtain ⟨ix, hix, hd⟩ := hp
    exact ⟨legal_range (h ix hix) hd, ix, hix, hd⟩

/-! ### dictionaries -/

theorem dictGet_dictSet {κ ν : Type} [DecidableEq κ] (k : κ) (v : ν) (d : List (κ × ν)) (k' : κ) :
    dictGet k' (dictSet k v d) = if k' = k then some v else dictGet k' d := by
  induction d with
  | nil =>
    by_cases h : k' = k
    · subst h; simp [dictSet, dictGet]
    · simp [dictSet, dictGet, h]; intro e; exact absurd e.symm h
  | cons p r ih =>
    obtain ⟨a, b⟩ := p
    by_cases ha : a = k
    · subst ha
      by_cases h : k' = a
      · subst h; simp [dictSet, dictGet]
      · have : a ≠ k' := fun e => h e.symm
        simp [dictSet, dictGet, h, this]
    · by_cases h : a = k'
      · subst h; simp [dictSet, dictGet, ha]
      · simp [dictSet, dictGet, ha, h, ih]

theorem dictGet_eq_none {κ ν : Type} [DecidableEq κ] (k : κ) (d : List (κ × ν)) :
    dictGet k d = none ↔ k ∉ d.map Prod.fst := by
  induction d with
  | nil => simp [dictGet]
  | cons p r ih =>
    obtain ⟨a, b⟩ := p
    by_cases h : a = k
    · subst h; simp [dictGet]
    · have : ¬ k = a := fun e => h e.symm
      simp [dictGet, h, ih, this]

theorem dictSet_keys {κ ν : Type} [DecidableEq κ] (k : κ) (v : ν) (d : List (κ × ν)) :
    (dictSet k v d).map Prod.fst = if k ∈ d.map Prod.fst then d.map Prod.fst else d.map Prod.fst ++ [k] := by
  induction d with
  | nil => simp [dictSet]
  | cons p r ih =>
    obtain ⟨a, b⟩ := p
    by_cases h : a = k
    · subst h; simp [dictSet]
    · have hk : ¬ k = a := fun e => h e.symm
      simp only [dictSet, h, if_false, List.map_cons, ih, List.mem_cons, hk, false_or]
      split <;> simp

theorem dictSet_nodup {κ ν : Type} [DecidableEq κ] (k : κ) (v : ν) (d : List (κ × ν)) (h : (d.map Prod.fst).Nodup) :
    ((dictSet k v d).map Prod.fst).Nodup := by
  rw [dictSet_keys]
  split
  · exact h
  · rename_i hk
    rw [List.nodup_append]
    refine ⟨h, by simp, ?_⟩
    intro a ha b hb
    rw [List.mem_singleton] at hb
    subst hb; rintro rfl; exact hk ha

theorem dictGet_of_mem {κ ν : Type} [DecidableEq κ] {d : List (κ × ν)} (h : (d.map Prod.fst).Nodup) {k : κ} {v : ν}
    (hm : (k, v) ∈ d) : dictGet k d = some v := by
  induction d with
  | nil => simp at hm
  | cons p r ih =>
    obtain ⟨a, b⟩ := p
    rw [List.map_cons, List.nodup_cons] at h
    rcases List.mem_cons.1 hm with e | hm
    · cases e; simp [dictGet]
    · have : a ≠ k := by
        rintro rfl
        exact h.1 (List.mem_map.2 ⟨(a, v), hm, rfl⟩)
      simp [dictGet, this, ih h.2 hm]

theorem mem_of_dictGet {κ ν : Type} [DecidableEq κ] {d : List (κ × ν)} {k : κ} {v : ν}
    (h : dictGet k d = some v) : (k, v) ∈ d := by
  induction d with
  | nil => simp [dictGet] at h
  | cons p r ih =>
    obtain ⟨a, b⟩ := p
    by_cases ha : a = k
    · subst ha; simp [dictGet] at h; subst h; simp
    · simp [dictGet, ha] at h; simp [ih h]

/-! ### integrate -/

/-- State of the integration loop: labels of `e` so far. -/
def dictHas (d : List (Int × List Int)) (p : Int × Int) : Prop := ∃ ls, dictGet p.1 d = some ls ∧ p.2 ∈ ls

structure IntInv (L : Int) (d : List (Int × List Int)) : Prop where
  keys : (d.map Prod.fst).Nodup
  nodup : ∀ e ls, dictGet e d = some ls → ls.Nodup
  range : ∀ e ls, dictGet e d = some ls → ∀ l ∈ ls, 0 ≤ l ∧ l < L

theorem integrateStep_legal {L : Int} {d : List (Int × List Int)} (hd : IntInv L d) {ix : Ix} (h : Legal L ix) :
    ∃ d', integrateStep L d ix = .ok d' ∧ IntInv L d' ∧ (∀ p, dictHas d' p ↔ dictHas d p ∨ Denotes L ix p) ∧
      d'.map Prod.fst = (match inst ix with
        | some e => if e ∈ d.map Prod.fst then d.map Prod.fst else d.map Prod.fst ++ [e]
        | none => d.map Prod.fst) := by
  cases ix with
  | nil => exact absurd h (by simp [Legal])
  | longer e s => exact absurd h (by simp [Legal])
  | all e =>
    refine ⟨_, rfl, ⟨dictSet_nodup _ _ _ hd.keys, ?_, ?_⟩, ?_, ?_⟩
    · intro e' ls hl
      rw [dictGet_dictSet] at hl
      split at hl
      · simp at hl; subst hl; exact intRange_nodup _
      · exact hd.nodup e' ls hl
    · intro e' ls hl
      rw [dictGet_dictSet] at hl
      split at hl
      · simp at hl; subst hl; intro l hl; exact (mem_intRange _ _).1 hl
      · exact hd.range e' ls hl
    · rintro ⟨a, b⟩
      simp only [dictHas, dictGet_dictSet, Denotes]
      by_cases ha : a = e
      · subst ha
        simp only [if_true, Option.some.injEq, exists_eq_left', mem_intRange, true_and]
        constructor
        · intro hb; exact .inr hb
        · rintro (⟨ls, h1, h2⟩ | hb)
          · exact hd.range _ _ h1 _ h2
          · exact hb
      · simp [ha]
    · rw [dictSet_keys]; rfl
  | pair e s =>
    have hL : ∀ l ∈ s.toList, 0 ≤ l ∧ l < L := by
      cases s with
      | scal l => intro x hx; simp [Second.toList] at hx; subst hx; exact h
      | iter b ls => exact h
    have hden : ∀ p : Int × Int, Denotes L (.pair e s) p ↔ p.1 = e ∧ p.2 ∈ s.toList := by
      rintro ⟨a, b⟩
      cases s with
      | scal l => simp [Denotes, Second.toList]
      | iter b ls => simp [Denotes, Second.toList]
    -- both branches set `e` to the union with the previous labels (none if absent)
    have key : ∀ old : List Int, (dictGet e d = some old ∨ (dictGet e d = none ∧ old = [])) →
        IntInv L (dictSet e (setUnion old s.toList) d) ∧
        ∀ p, dictHas (dictSet e (setUnion old s.toList) d) p ↔ dictHas d p ∨ Denotes L (.pair e s) p := by
      intro old hold
      have hn : old.Nodup := by
        rcases hold with h1 | ⟨_, rfl⟩
        · exact hd.nodup _ _ h1
        · simp
      have hr : ∀ l ∈ old, 0 ≤ l ∧ l < L := by
        rcases hold with h1 | ⟨_, rfl⟩
        · exact hd.range _ _ h1
        · simp
      refine ⟨⟨dictSet_nodup _ _ _ hd.keys, ?_, ?_⟩, ?_⟩
      · intro e' ls hl
        rw [dictGet_dictSet] at hl
        split at hl
        · simp at hl; subst hl; exact setUnion_nodup _ _ hn
        · exact hd.nodup e' ls hl
      · intro e' ls hl
        rw [dictGet_dictSet] at hl
        split at hl
        · simp at hl; subst hl
          intro l hl
          rcases (mem_setUnion _ _ _).1 hl with hl | hl
          · exact hr l hl
          · exact hL l hl
        · exact hd.range e' ls hl
      · rintro ⟨a, b⟩
        rw [hden]
        simp only [dictHas, dictGet_dictSet]
        by_cases ha : a = e
        · subst ha
          simp only [if_true, Option.some.injEq, exists_eq_left', mem_setUnion, true_and]
          rcases hold with h1 | ⟨h1, rfl⟩
          · simp [h1]
          · simp [h1]
        · simp [ha]
    cases hg : dictGet e d with
    | none =>
      obtain ⟨k1, k2⟩ := key [] (.inr ⟨hg, rfl⟩)
      exact ⟨dictSet e (setUnion [] s.toList) d, by simp [integrateStep, hg], k1, k2, by rw [dictSet_keys]; rfl⟩
    | some old =>
      obtain ⟨k1, k2⟩ := key old (.inl hg)
      exact ⟨dictSet e (setUnion old s.toList) d, by simp [integrateStep, hg], k1, k2, by rw [dictSet_keys]; rfl⟩

theorem integrateLoop_legal {L : Int} : ∀ (ixs : List Ix) (d : List (Int × List Int)), IntInv L d →
    (∀ ix ∈ ixs, Legal L ix) →
    ∃ d', integrateLoop L d ixs = .ok d' ∧ IntInv L d' ∧ (∀ p, dictHas d' p ↔ dictHas d p ∨ DenotesAny L ixs p) ∧
      (∀ e, e ∈ d'.map Prod.fst ↔ e ∈ d.map Prod.fst ∨ some e ∈ ixs.map inst)
  | [], d, hd, _ => ⟨d, rfl, hd, by simp [DenotesAny], by simp⟩
  | ix :: r, d, hd, h => by
    obtain ⟨d1, h1, hi, hp, hk⟩ := integrateStep_legal hd (h ix (by simp))
    obtain ⟨d2, h2, hi2, hp2, hk2⟩ := integrateLoop_legal r d1 hi (fun i hi => h i (by simp [hi]))
    refine ⟨d2, by simp [integrateLoop, h1, h2], hi2, ?_, ?_⟩
    · intro p
      rw [hp2, hp]
      simp only [DenotesAny, List.mem_cons, exists_eq_or_imp]
      tauto
    · intro e
      rw [hk2, hk]
      simp only [List.map_cons, List.mem_cons]
      cases hix : inst ix with
      | none => simp
      | some e' =>
        simp only [Option.some.injEq]
        split
        · rename_i hm
          constructor
          · rintro (h | h)
            · exact .inl h
            · exact .inr (.inr h)
          · rintro (h | rfl | h)
            · exact .inl h
            · exact .inl hm
            · exact .inr h
        · simp only [List.mem_append, List.mem_singleton]
          tauto

/-- In a duplicate-free list of labels within `[0, L)`, `L` entries means all labels. -/
theorem full_labels {L : Int} (hL : 0 < L) {ls : List Int} (hn : ls.Nodup) (hr : ∀ l ∈ ls, 0 ≤ l ∧ l < L) :
    (ls.length : Int) = L ↔ ∀ l, 0 ≤ l → l < L → l ∈ ls := by
  constructor
  · intro hlen l h0 h1
    have hsub : ls ⊆ intRange L := fun x hx => (mem_intRange _ _).2 (hr x hx)
    have hp : ls.Perm (intRange L) :=
      (List.subperm_of_subset hn hsub).perm_of_length_le (by rw [intRange_length]; omega)
    exact hp.mem_iff.2 ((mem_intRange _ _).2 ⟨h0, h1⟩)
  · intro h
    have hp : ls.Perm (intRange L) := (List.perm_ext_iff_of_nodup hn (intRange_nodup L)).2
      (fun x => ⟨fun hx => (mem_intRange _ _).2 (hr x hx), fun hx => by
        have := (mem_intRange _ _).1 hx; exact h x this.1 this.2⟩)
    rw [hp.length_eq, intRange_length]; omega

theorem integrateOut_mem {L : Int} (hL : 0 < L) {d : List (Int × List Int)} (hd : IntInv L d) (p : Int × Int) :
    DenotesAny L (integrateOut L d) p ↔ dictHas d p := by
  simp only [DenotesAny, integrateOut, List.mem_map]
  constructor
  · rintro ⟨_, ⟨⟨e, ls⟩, hm, rfl⟩, hden⟩
    have hg := dictGet_of_mem hd.keys hm
    simp only at hden
    split at hden
    · rename_i hlen
      obtain ⟨rfl, h0, h1⟩ := hden
      exact ⟨ls, hg, (full_labels hL (hd.nodup _ _ hg) (hd.range _ _ hg)).1 hlen _ h0 h1⟩
    · obtain ⟨rfl, h0⟩ := hden
      exact ⟨ls, hg, h0⟩
  · rintro ⟨ls, hg, hl⟩
    refine ⟨_, ⟨(p.1, ls), mem_of_dictGet hg, rfl⟩, ?_⟩
    simp only
    split
    · have := hd.range _ _ hg _ hl
      exact ⟨rfl, this.1, this.2⟩
    · exact ⟨rfl, hl⟩

theorem integrateOut_inst {L : Int} (d : List (Int × List Int)) :
    (integrateOut L d).map inst = (d.map Prod.fst).map some := by
  simp only [integrateOut, List.map_map]
  apply List.map_congr_left
  rintro ⟨e, ls⟩ _
  simp only [Function.comp]
  split <;> rfl

theorem integrateOut_legal {L : Int} {d : List (Int × List Int)} (hd : IntInv L d) :
    ∀ ix ∈ integrateOut L d, Legal L ix := by
  intro ix hix
  simp only [integrateOut, List.mem_map] at hix
  obtain ⟨⟨e, ls⟩, hm, rfl⟩ := hix
  simp only
  split
  · trivial
  · exact hd.range _ _ (dictGet_of_mem hd.keys hm)

end Alipy

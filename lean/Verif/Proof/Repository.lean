import Verif.Spec.Repository
import Verif.Proof.Oracle
import Verif.Proof.MultiLabelTools
import Mathlib.Data.List.Nodup
import Mathlib.Tactic.Linarith
/-! # Lemmas on the repositories -/
set_option linter.unusedSectionVars false
namespace Alipy
open Spec

theorem dictGet_dictErase {κ ν : Type} [DecidableEq κ] (k k' : κ) (d : List (κ × ν)) :
    dictGet k' (dictErase k d) = if k' = k then none else dictGet k' d := by
  induction d with
  | nil => simp [dictErase, dictGet]
  | cons p r ih =>
    obtain ⟨a, v⟩ := p
    simp only [dictErase, List.filter_cons] at ih ⊢
    by_cases ha : a = k
    · subst ha
      simp only [ne_eq, not_true_eq_false, decide_false, Bool.false_eq_true, if_false, ih, dictGet]
      by_cases h : k' = a
      · simp [h]
      · simp [h, Ne.symm h]
    · simp only [ne_eq, ha, not_false_eq_true, decide_true, if_true, dictGet, ih]
      by_cases h : a = k'
      · subst h; simp [ha]
      · simp [h]

theorem noClash_append {κ β χ : Type} {rows rs : List (Row κ β χ)} (h : NoClash (rows ++ rs)) : NoClash rows ∧ NoClash rs := by
  unfold NoClash at *
  rw [List.pairwise_append] at h
  exact ⟨h.1, h.2.1⟩

theorem Spec.NoClash.index_inj {κ β χ : Type} {rows : List (Row κ β χ)} (h : NoClash rows) {r s : Row κ β χ} (hr : r ∈ rows) (hs : s ∈ rows)
    (he : r.index = s.index) : r = s := by
  induction rows with
  | nil => simp at hr
  | cons a l ih =>
    rw [NoClash, List.pairwise_cons] at h
    rcases List.mem_cons.1 hr with rfl | hr' <;> rcases List.mem_cons.1 hs with rfl | hs'
    · rfl
    · exact absurd he (h.1 s hs').1
    · exact absurd he.symm (h.1 r hr').1
    · exact ih h.2 hr' hs'

theorem Spec.NoClash.ex_inj {κ β χ : Type} {rows : List (Row κ β χ)} (h : NoClash rows) {r s : Row κ β χ} {x : χ} (hr : r ∈ rows) (hs : s ∈ rows)
    (h1 : r.ex = some x) (h2 : s.ex = some x) : r = s := by
  induction rows with
  | nil => simp at hr
  | cons a l ih =>
    rw [NoClash, List.pairwise_cons] at h
    rcases List.mem_cons.1 hr with rfl | hr' <;> rcases List.mem_cons.1 hs with rfl | hs'
    · rfl
    · exact absurd h2 ((h.1 s hs').2 x h1)
    · exact absurd h1 ((h.1 r hr').2 x h2)
    · exact ih h.2 hr' hs'

theorem Spec.NoClash.nodup {κ β χ : Type} {rows : List (Row κ β χ)} (h : NoClash rows) : (rows.map Row.index).Nodup := by
  rw [List.nodup_iff_pairwise_ne, List.pairwise_map]
  exact List.Pairwise.imp (fun h => h.1) h

theorem Spec.NoClash.filter {κ β χ : Type} {rows : List (Row κ β χ)} (h : NoClash rows) (p : Row κ β χ → Bool) : NoClash (rows.filter p) :=
  List.Pairwise.sublist List.filter_sublist h

theorem Spec.NoClash.keep {κ β χ : Type} {rows : List (Row κ β χ)} (h : NoClash rows) (w : Bool) : NoClash (rows.map (keep w)) := by
  unfold NoClash
  rw [List.pairwise_map]
  refine List.Pairwise.imp ?_ h
  intro r s h
  cases w
  · exact ⟨h.1, by simp [Spec.keep]⟩
  · exact h

theorem noClash_snoc {κ β χ : Type} {rows : List (Row κ β χ)} {r : Row κ β χ} :
    NoClash (rows ++ [r]) ↔ NoClash rows ∧ ∀ s ∈ rows, s.index ≠ r.index ∧ ∀ x, s.ex = some x → r.ex ≠ some x := by
  unfold NoClash
  rw [List.pairwise_append]
  simp

namespace ERepo
variable {κ β χ : Type} [DecidableEq κ] [DecidableEq χ]

/-- The repository holds exactly the rows of a table. -/
structure Holds (w : Bool) (o : ERepo κ β χ) (rows : List (Row κ β χ)) : Prop where
  flag : o.hasEx = w
  table : NoClash rows
  indexes : o.indexes = rows.map Row.index
  label : ∀ k b, dictGet k o.ind2label = some b ↔ ∃ r ∈ rows, r.index = k ∧ r.label = b
  ex : w = true → ∀ r ∈ rows, ∃ x, r.ex = some x
  noex : w = false → ∀ r ∈ rows, r.ex = none
  i2e : w = true → ∀ k x, dictGet k o.ind2exa = some x ↔ ∃ r ∈ rows, r.index = k ∧ r.ex = some x
  e2i : w = true → ∀ k x, dictGet x o.exa2ind = some k ↔ ∃ r ∈ rows, r.index = k ∧ r.ex = some x

theorem rowsOf_zip {rows : List (Row κ β χ)} {labels : List β} {indexes : List κ} {examples : Option (List χ)}
    (h : RowsOf rows labels indexes examples) :
    indexes.zip labels = rows.map (fun r => (r.index, r.label)) := by
  rw [← h.1, ← h.2.1, List.zip_map', ]

theorem mostRecent_of_nodup {α ι : Type} {l : List α} {key : α → ι} (h : l.Pairwise (fun a b => key a ≠ key b)) {k : ι} {a : α} :
    MostRecent l key k a ↔ a ∈ l ∧ key a = k := by
  constructor
  · rintro ⟨pre, post, rfl, h1, h2⟩
    exact ⟨by simp, h1⟩
  · rintro ⟨ha, rfl⟩
    obtain ⟨pre, post, rfl⟩ := List.append_of_mem ha
    refine ⟨pre, post, rfl, rfl, fun b hb => ?_⟩
    rw [List.pairwise_append] at h
    exact (List.rel_of_pairwise_cons h.2.1 hb).symm

theorem dictGet_table {α ι ν : Type} [DecidableEq ι] {l : List α} (key : α → ι) (val : α → ν)
    (h : l.Pairwise (fun a b => key a ≠ key b)) (k : ι) (v : ν) :
    dictGet k (dictOfList (l.map (fun a => (key a, val a)))) = some v ↔ ∃ a ∈ l, key a = k ∧ val a = v := by
  rw [dictGet_dictOfList]
  constructor
  · intro hh
    simp only [Option.map_eq_some_iff] at hh
    obtain ⟨a, ha, rfl⟩ := hh
    have := lastBy_some.1 ha
    obtain ⟨pre, post, rfl, h1, -⟩ := this
    exact ⟨a, by simp, by simpa using h1, rfl⟩
  · rintro ⟨a, ha, rfl, rfl⟩
    have hm : MostRecent l key (key a) a := (mostRecent_of_nodup h).2 ⟨ha, rfl⟩
    rw [mostRecent_iff] at hm
    rw [hm]; rfl

/-- Rows together with their examples. -/
theorem zip_ex {rows : List (Row κ β χ)} {xs : List χ} (h : rows.map Row.ex = xs.map some) :
    (∀ p ∈ rows.zip xs, p.1 ∈ rows ∧ p.1.ex = some p.2) ∧ (∀ r ∈ rows, ∃ x, (r, x) ∈ rows.zip xs) ∧
    (rows.map Row.index).zip xs = (rows.zip xs).map (fun p => (p.1.index, p.2)) ∧
    xs.zip (rows.map Row.index) = (rows.zip xs).map (fun p => (p.2, p.1.index)) := by
  induction rows generalizing xs with
  | nil => cases xs <;> simp_all
  | cons r l ih =>
    cases xs with
    | nil => simp at h
    | cons x xs =>
      simp only [List.map_cons, List.cons.injEq] at h
      obtain ⟨h1, h2, h3, h4⟩ := ih h.2
      refine ⟨?_, ?_, by simp [h3], by simp [h4]⟩
      · intro p hp
        rcases List.mem_cons.1 (by simpa using hp) with rfl | hp
        · exact ⟨by simp, h.1⟩
        · exact ⟨by simp [(h1 p hp).1], (h1 p hp).2⟩
      · intro s hs
        rcases List.mem_cons.1 hs with rfl | hs
        · exact ⟨x, by simp⟩
        · obtain ⟨y, hy⟩ := h2 s hs
          exact ⟨y, by simp [hy]⟩

theorem zip_pairwise {rows : List (Row κ β χ)} {xs : List χ} (h : rows.map Row.ex = xs.map some) (ht : NoClash rows) :
    (rows.zip xs).Pairwise (fun a b => a.1.index ≠ b.1.index) ∧ (rows.zip xs).Pairwise (fun a b => a.2 ≠ b.2) := by
  induction rows generalizing xs with
  | nil => simp
  | cons r l ih =>
    cases xs with
    | nil => simp
    | cons x xs =>
      simp only [List.map_cons, List.cons.injEq] at h
      rw [NoClash, List.pairwise_cons] at ht
      obtain ⟨h1, h2⟩ := ih h.2 ht.2
      have hz := (zip_ex h.2).1
      simp only [List.zip_cons_cons, List.pairwise_cons]
      refine ⟨⟨fun p hp => (ht.1 _ (hz p hp).1).1, h1⟩, ⟨fun p hp => ?_, h2⟩⟩
      rintro rfl
      exact (ht.1 _ (hz p hp).1).2 _ h.1 (hz p hp).2

theorem Holds.new {labels : List β} {indexes : List κ} {examples : Option (List χ)} {o : ERepo κ β χ} {rows : List (Row κ β χ)}
    (hrows : RowsOf rows labels indexes examples) (ht : NoClash rows) (h : ERepo.new labels indexes examples = .ok o) :
    Holds examples.isSome o rows := by
  unfold ERepo.new at h
  split at h
  · cases h
    have hi : rows.Pairwise (fun a b => a.index ≠ b.index) := List.Pairwise.imp (fun h => h.1) ht
    refine ⟨rfl, ht, hrows.2.1.symm, ?_, ?_, ?_, ?_, ?_⟩
    · intro k b
      simp only [rowsOf_zip hrows]
      exact dictGet_table Row.index Row.label hi k b
    · intro hs
      obtain ⟨xs, rfl⟩ := Option.isSome_iff_exists.1 hs
      intro r hr
      obtain ⟨h1, h2, -⟩ := zip_ex (hrows.2.2.1 xs rfl)
      obtain ⟨x, hx⟩ := h2 r hr
      exact ⟨x, (h1 _ hx).2⟩
    · intro hs
      cases examples with
      | none => exact hrows.2.2.2 rfl
      | some xs => simp at hs
    · intro hs k x
      obtain ⟨xs, rfl⟩ := Option.isSome_iff_exists.1 hs
      have hx := hrows.2.2.1 xs rfl
      obtain ⟨h1, h2, h3, h4⟩ := zip_ex hx
      simp only [Option.getD_some, ← hrows.2.1, h3]
      rw [dictGet_table (fun p : Row κ β χ × χ => p.1.index) Prod.snd (zip_pairwise hx ht).1]
      constructor
      · rintro ⟨p, hp, rfl, rfl⟩
        exact ⟨p.1, (h1 p hp).1, rfl, (h1 p hp).2⟩
      · rintro ⟨r, hr, rfl, he⟩
        obtain ⟨y, hy⟩ := h2 r hr
        refine ⟨_, hy, rfl, ?_⟩
        have := (h1 _ hy).2
        rw [he] at this
        exact (Option.some.inj this).symm
    · intro hs k x
      obtain ⟨xs, rfl⟩ := Option.isSome_iff_exists.1 hs
      have hx := hrows.2.2.1 xs rfl
      obtain ⟨h1, h2, h3, h4⟩ := zip_ex hx
      simp only [Option.getD_some, ← hrows.2.1, h4]
      rw [dictGet_table (fun p : Row κ β χ × χ => p.2) (fun p => p.1.index) (zip_pairwise hx ht).2]
      constructor
      · rintro ⟨p, hp, rfl, rfl⟩
        exact ⟨p.1, (h1 p hp).1, rfl, (h1 p hp).2⟩
      · rintro ⟨r, hr, rfl, he⟩
        obtain ⟨y, hy⟩ := h2 r hr
        refine ⟨_, hy, ?_, rfl⟩
        have := (h1 _ hy).2
        rw [he] at this
        exact (Option.some.inj this).symm
  · cases h

theorem Holds.add {w : Bool} {o o' : ERepo κ β χ} {rows : List (Row κ β χ)} {r : Row κ β χ} {c : Option ℚ} (hh : Holds w o rows)
    (ht : NoClash (rows ++ [keep w r])) (h : o.add r.index r.label c r.ex = (o', none)) : Holds w o' (rows ++ [keep w r]) := by
  have hl : ∀ k b, dictGet k (dictSet r.index r.label o.ind2label) = some b ↔
      ∃ s ∈ rows ++ [keep w r], s.index = k ∧ s.label = b := by
    intro k b
    have hki : (keep w r).index = r.index ∧ (keep w r).label = r.label := by cases w <;> exact ⟨rfl, rfl⟩
    rw [dictGet_dictSet]
    by_cases hk : k = r.index
    · simp only [hk, if_true, Option.some.injEq]
      constructor
      · rintro rfl; exact ⟨_, by simp, hki.1, hki.2⟩
      · rintro ⟨s, hs, h1, h2⟩
        rcases List.mem_append.1 hs with hs | hs
        · exact absurd (h1.trans hki.1.symm) ((noClash_snoc.1 ht).2 s hs).1
        · rw [List.mem_singleton] at hs; subst hs; rw [← h2, hki.2]
    · rw [if_neg hk, hh.label]
      constructor
      · rintro ⟨s, hs, h1⟩; exact ⟨s, by simp [hs], h1⟩
      · rintro ⟨s, hs, h1, h2⟩
        rcases List.mem_append.1 hs with hs | hs
        · exact ⟨s, hs, h1, h2⟩
        · rw [List.mem_singleton] at hs; subst hs; exact absurd (h1.symm.trans hki.1) hk
  have hi : o.indexes ++ [r.index] = (rows ++ [keep w r]).map Row.index := by
    rw [hh.indexes]; cases w <;> simp [keep]
  unfold ERepo.add at h
  cases hw : w with
  | false =>
    rw [hh.flag, hw] at h
    simp only [Bool.false_eq_true, if_false, Prod.mk.injEq, and_true] at h
    subst h hw
    refine ⟨hh.flag, ht, hi, hl, by simp, fun _ s hs => ?_, by simp, by simp⟩
    rcases List.mem_append.1 hs with hs | hs
    · exact hh.noex rfl s hs
    · rw [List.mem_singleton] at hs; subst hs; rfl
  | true =>
    rw [hh.flag, hw] at h
    cases hx : r.ex with
    | none => rw [hx] at h; simp at h
    | some x =>
      rw [hx] at h
      simp only [if_true, Prod.mk.injEq, and_true] at h
      subst h hw
      have hkeep : keep true r = r := rfl
      rw [hkeep] at ht hi hl ⊢
      have hfresh := (noClash_snoc.1 ht).2
      refine ⟨rfl, ht, hi, hl, fun _ s hs => ?_, by simp, fun _ k y => ?_, fun _ k y => ?_⟩
      · rcases List.mem_append.1 hs with hs | hs
        · exact hh.ex rfl s hs
        · rw [List.mem_singleton] at hs; subst hs; exact ⟨x, hx⟩
      · show dictGet k (dictSet r.index x o.ind2exa) = some y ↔ _
        rw [dictGet_dictSet]
        by_cases hk : k = r.index
        · simp only [hk, if_true, Option.some.injEq]
          constructor
          · rintro rfl; exact ⟨r, by simp, rfl, hx⟩
          · rintro ⟨s, hs, h1, h2⟩
            rcases List.mem_append.1 hs with hs | hs
            · exact absurd h1 (hfresh s hs).1
            · rw [List.mem_singleton] at hs; subst hs; rw [hx] at h2; exact Option.some.inj h2
        · rw [if_neg hk, hh.i2e rfl]
          constructor
          · rintro ⟨s, hs, h1⟩; exact ⟨s, by simp [hs], h1⟩
          · rintro ⟨s, hs, h1, h2⟩
            rcases List.mem_append.1 hs with hs | hs
            · exact ⟨s, hs, h1, h2⟩
            · rw [List.mem_singleton] at hs; subst hs; exact absurd h1.symm hk
      · show dictGet y (dictSet x r.index o.exa2ind) = some k ↔ _
        rw [dictGet_dictSet]
        by_cases hk : y = x
        · simp only [hk, if_true, Option.some.injEq]
          constructor
          · rintro rfl; exact ⟨r, by simp, rfl, hx⟩
          · rintro ⟨s, hs, h1, h2⟩
            rcases List.mem_append.1 hs with hs | hs
            · exact absurd hx ((hfresh s hs).2 x h2)
            · rw [List.mem_singleton] at hs; subst hs; exact h1
        · rw [if_neg hk, hh.e2i rfl]
          constructor
          · rintro ⟨s, hs, h1⟩; exact ⟨s, by simp [hs], h1⟩
          · rintro ⟨s, hs, h1, h2⟩
            rcases List.mem_append.1 hs with hs | hs
            · exact ⟨s, hs, h1, h2⟩
            · rw [List.mem_singleton] at hs; subst hs; rw [hx] at h2; exact absurd (Option.some.inj h2).symm hk

theorem add_fail {o o' : ERepo κ β χ} {k : κ} {b : β} {c : Option ℚ} {x : Option χ} {e : PyErr} (h : o.add k b c x = (o', some e)) :
    o' = o ∧ o.hasEx = true ∧ x = none := by
  unfold ERepo.add at h
  split at h
  · rename_i hf
    cases x with
    | none => simp only [Prod.mk.injEq] at h; exact ⟨h.1.symm, hf, rfl⟩
    | some x => simp at h
  · simp at h

theorem erase_eq_filter {rows : List (Row κ β χ)} (ht : NoClash rows) (k : κ) :
    (rows.map Row.index).erase k = (rows.filter (fun r => decide (r.index ≠ k))).map Row.index := by
  rw [List.Nodup.erase_eq_filter (Spec.NoClash.nodup ht), List.filter_map]
  congr 1
  apply List.filter_congr
  intro r _
  show (r.index != k) = decide (r.index ≠ k)
  by_cases h : r.index = k <;> simp [h]

/-- Removing the row `r`. -/
theorem Holds.remove {w : Bool} {o : ERepo κ β χ} {rows : List (Row κ β χ)} (hh : Holds w o rows) {r : Row κ β χ} (hr : r ∈ rows)
    (x : χ) (hx : w = true → r.ex = some x) :
    Holds w { o with
      indexes := o.indexes.erase r.index
      ind2label := dictErase r.index o.ind2label
      ind2exa := if w then dictErase r.index o.ind2exa else o.ind2exa
      exa2ind := if w then dictErase x o.exa2ind else o.exa2ind } (rows.filter (fun s => decide (s.index ≠ r.index))) := by
  refine ⟨hh.flag, hh.table.filter _, by rw [← erase_eq_filter hh.table, hh.indexes], ?_, ?_, ?_, ?_, ?_⟩
  · intro k b
    simp only [dictGet_dictErase]
    by_cases hk : k = r.index
    · simp only [hk, if_true, reduceCtorEq, List.mem_filter, decide_eq_true_eq, false_iff, not_exists, not_and, and_imp]
      intro s _ h1 h2; exact absurd h2 h1
    · rw [if_neg hk, hh.label]
      constructor
      · rintro ⟨s, hs, h1, h2⟩; exact ⟨s, by simp [hs, h1, hk], h1, h2⟩
      · rintro ⟨s, hs, h1⟩; exact ⟨s, (List.mem_filter.1 hs).1, h1⟩
  · exact fun hw s hs => hh.ex hw s (List.mem_filter.1 hs).1
  · exact fun hw s hs => hh.noex hw s (List.mem_filter.1 hs).1
  · intro hw k y
    simp only [hw, if_true, dictGet_dictErase]
    by_cases hk : k = r.index
    · simp only [hk, if_true, reduceCtorEq, List.mem_filter, decide_eq_true_eq, false_iff, not_exists, not_and, and_imp]
      intro s _ h1 h2; exact absurd h2 h1
    · rw [if_neg hk, hh.i2e hw]
      constructor
      · rintro ⟨s, hs, h1, h2⟩; exact ⟨s, by simp [hs, h1, hk], h1, h2⟩
      · rintro ⟨s, hs, h1⟩; exact ⟨s, (List.mem_filter.1 hs).1, h1⟩
  · intro hw k y
    simp only [hw, if_true, dictGet_dictErase]
    by_cases hk : y = x
    · simp only [hk, if_true, reduceCtorEq, List.mem_filter, decide_eq_true_eq, false_iff, not_exists, not_and, and_imp]
      intro s hs h1 h2 h3
      exact h1 (by rw [hh.table.ex_inj hs hr h3 (hx hw)])
    · rw [if_neg hk, hh.e2i hw]
      constructor
      · rintro ⟨s, hs, h1, h2⟩
        refine ⟨s, ?_, h1, h2⟩
        simp only [List.mem_filter, decide_eq_true_eq]
        refine ⟨hs, fun he => hk ?_⟩
        have := hh.table.index_inj hs hr he
        subst this
        rw [hx hw] at h2
        exact (Option.some.inj h2).symm
      · rintro ⟨s, hs, h1⟩; exact ⟨s, (List.mem_filter.1 hs).1, h1⟩

theorem Holds.discardIx {w : Bool} {o : ERepo κ β χ} {rows : List (Row κ β χ)} (hh : Holds w o rows) (k : κ) :
    (o.discard (some k) none).2 = none ∧
    Holds w (o.discard (some k) none).1 (rows.filter (fun r => decide (r.index ≠ k))) := by
  unfold ERepo.discard
  simp only [ERepo.discardIx]
  by_cases hk : k ∈ o.indexes
  · rw [if_pos hk]
    have hk' := hk
    rw [hh.indexes, List.mem_map] at hk'
    obtain ⟨r, hr, rfl⟩ := hk'
    have h1 := (hh.label r.index r.label).2 ⟨r, hr, rfl, rfl⟩
    rw [h1]
    cases hw : w with
    | false =>
      simp only [hh.flag, hw, Bool.false_eq_true, if_false, true_and]
      subst hw
      have := hh.remove hr
      by_cases hne : Nonempty χ
      · simpa [hh.flag] using this hne.some (by simp)
      · obtain ⟨a1, a2, a3, a4, a5, a6, a7, a8⟩ := hh
        refine ⟨rfl, a2.filter _, by rw [← erase_eq_filter a2, a3], ?_, by simp, fun _ s hs => a6 rfl s (List.mem_filter.1 hs).1,
          by simp, by simp⟩
        intro k b
        simp only [dictGet_dictErase]
        by_cases hk : k = r.index
        · simp only [hk, if_true, reduceCtorEq, List.mem_filter, decide_eq_true_eq, false_iff, not_exists, not_and, and_imp]
          intro s _ h1 h2; exact absurd h2 h1
        · rw [if_neg hk, a4]
          constructor
          · rintro ⟨s, hs, h1, h2⟩; exact ⟨s, by simp [hs, h1, hk], h1, h2⟩
          · rintro ⟨s, hs, h1⟩; exact ⟨s, (List.mem_filter.1 hs).1, h1⟩
    | true =>
      subst hw
      obtain ⟨x, hx⟩ := hh.ex rfl r hr
      have h2 := (hh.i2e rfl r.index x).2 ⟨r, hr, rfl, hx⟩
      have h3 := (hh.e2i rfl r.index x).2 ⟨r, hr, rfl, hx⟩
      simp only [hh.flag, if_true, h2, h3, true_and]
      simpa [hh.flag] using hh.remove hr x (fun _ => hx)
  · rw [if_neg hk]
    refine ⟨rfl, ?_⟩
    have : rows.filter (fun r => decide (r.index ≠ k)) = rows := by
      rw [List.filter_eq_self]
      intro r hr
      simp only [decide_eq_true_eq]
      rintro rfl
      exact hk (by rw [hh.indexes]; exact List.mem_map_of_mem hr)
    rw [this]; exact hh

theorem Holds.discardEx {o : ERepo κ β χ} {rows : List (Row κ β χ)} (hh : Holds true o rows) (x : χ) :
    (o.discard none (some x)).2 = none ∧
    Holds true (o.discard none (some x)).1 (rows.filter (fun r => decide (r.ex ≠ some x))) := by
  unfold ERepo.discard
  simp only [ERepo.discardEx, hh.flag, if_true]
  cases hd : dictGet x o.exa2ind with
  | none =>
    refine ⟨rfl, ?_⟩
    have : rows.filter (fun r => decide (r.ex ≠ some x)) = rows := by
      rw [List.filter_eq_self]
      intro r hr
      simp only [decide_eq_true_eq]
      intro he
      have := (hh.e2i rfl r.index x).2 ⟨r, hr, rfl, he⟩
      rw [hd] at this; cases this
    rw [this]; exact hh
  | some k =>
    obtain ⟨r, hr, rfl, hx⟩ := (hh.e2i rfl _ x).1 hd
    have h1 := (hh.label r.index r.label).2 ⟨r, hr, rfl, rfl⟩
    have h2 := (hh.i2e rfl r.index x).2 ⟨r, hr, rfl, hx⟩
    have hk : r.index ∈ o.indexes := by rw [hh.indexes]; exact List.mem_map_of_mem hr
    have hf : rows.filter (fun s => decide (s.ex ≠ some x)) = rows.filter (fun s => decide (s.index ≠ r.index)) := by
      apply List.filter_congr
      intro s hs
      congr 1
      apply propext
      apply not_congr
      exact ⟨fun h => by rw [hh.table.ex_inj hs hr h hx], fun h => by rw [hh.table.index_inj hs hr h]; exact hx⟩
    simp only [hk, if_true, h1, h2, true_and, hf]
    simpa [hh.flag] using hh.remove hr x (fun _ => hx)

theorem Holds.training {w : Bool} {o : ERepo κ β χ} {rows : List (Row κ β χ)} (hh : Holds w o rows) (rs : List (Row κ β χ))
    (hs : ∀ r ∈ rs, r ∈ rows) : o.training (rs.map Row.index) = .ok (rs.filterMap Row.ex, rs.map Row.label) := by
  induction rs with
  | nil => rfl
  | cons r l ih =>
    have ih' := ih (fun s h => hs s (by simp [h]))
    have hr := hs r (by simp)
    have h1 := (hh.label r.index r.label).2 ⟨r, hr, rfl, rfl⟩
    simp only [List.map_cons, ERepo.training, hh.flag, h1, ih']
    cases w with
    | false => simp [Except.map, hh.noex rfl r hr]
    | true =>
      obtain ⟨x, hx⟩ := hh.ex rfl r hr
      have h2 := (hh.i2e rfl r.index x).2 ⟨r, hr, rfl, hx⟩
      simp [Except.map, h2, hx]

theorem Holds.retrieve {w : Bool} {o : ERepo κ β χ} {rows : List (Row κ β χ)} (hh : Holds w o rows) (ks : List κ) :
    ∃ rs : List (Row κ β χ), (∀ r ∈ rs, r ∈ rows) ∧ rs.map Row.index = ks.filter (fun k => decide (k ∈ rows.map Row.index)) ∧
      o.retrieve ks = .ok (rs.filterMap Row.ex, rs.map Row.label) := by
  induction ks with
  | nil => exact ⟨[], by simp, by simp, rfl⟩
  | cons k l ih =>
    obtain ⟨rs, h1, h2, h3⟩ := ih
    cases hk : dictGet k o.ind2label with
    | none =>
      refine ⟨rs, h1, ?_, by simp [ERepo.retrieve, hk, h3]⟩
      have : ¬ k ∈ rows.map Row.index := by
        rw [List.mem_map]
        rintro ⟨r, hr, rfl⟩
        rw [(hh.label r.index r.label).2 ⟨r, hr, rfl, rfl⟩] at hk; cases hk
      rw [List.filter_cons_of_neg (by simpa using this), h2]
    | some b =>
      obtain ⟨r, hr, rfl, rfl⟩ := (hh.label k b).1 hk
      refine ⟨r :: rs, ?_, ?_, ?_⟩
      · intro s hs; rcases List.mem_cons.1 hs with rfl | hs
        · exact hr
        · exact h1 s hs
      · rw [List.filter_cons_of_pos (by simpa using ⟨r, hr, rfl⟩), List.map_cons, h2]
      · simp only [ERepo.retrieve, hk, hh.flag, h3]
        cases w with
        | false => simp [Except.map, hh.noex rfl r hr]
        | true =>
          obtain ⟨x, hx⟩ := hh.ex rfl r hr
          have h2 := (hh.i2e rfl r.index x).2 ⟨r, hr, rfl, hx⟩
          simp [Except.map, h2, hx]

end ERepo
end Alipy

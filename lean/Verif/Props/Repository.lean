import Verif.Proof.Repository
/-! # C29: the element-wise knowledge repository -/
set_option linter.unusedSectionVars false
namespace Alipy
open Spec

/-- The row stored by one call of `add`. -/
def rowOf {κ β χ : Type} (t : κ × β × Option ℚ × Option χ) : Row κ β χ := ⟨t.1, t.2.1, t.2.2.2⟩

theorem repoRows_rowOf {κ β χ : Type} (cost : Option (List ℚ)) : ∀ (rows : List (Row κ β χ)) (labels : List β) (indexes : List κ)
    (examples : Option (List χ)) (_ : RowsOf rows labels indexes examples),
    (repoRows labels indexes cost examples).map rowOf = rows := by
  intro rows
  induction rows generalizing cost with
  | nil =>
    intro labels indexes examples h
    obtain ⟨rfl, rfl, -, -⟩ := h
    simp [repoRows]
  | cons r l ih =>
    intro labels indexes examples h
    obtain ⟨rfl, rfl, h3, h4⟩ := h
    simp only [List.map_cons, repoRows]
    rw [ih]
    · congr 1
      cases examples with
      | none => simp [rowOf, ← h4 rfl r (by simp)]
      | some xs =>
        have := h3 xs rfl
        cases xs with
        | nil => simp at this
        | cons x xs =>
          simp only [List.map_cons, List.cons.injEq] at this
          simp [rowOf, ← this.1]
    · refine ⟨rfl, rfl, ?_, ?_⟩
      · intro xs hxs
        cases examples with
        | none => simp at hxs
        | some ys =>
          have := h3 ys rfl
          cases ys with
          | nil => simp at this
          | cons y ys =>
            simp only [Option.map_some, List.tail_cons, Option.some.injEq] at hxs
            subst hxs
            simp only [List.map_cons, List.cons.injEq] at this
            exact this.2
      · intro hn
        cases examples with
        | none => intro s hs; exact h4 rfl s (by simp [hs])
        | some ys => simp at hn

theorem repoRows_none {κ β χ : Type} : ∀ (labels : List β) (indexes : List κ) (cost : Option (List ℚ)),
    ∀ t ∈ repoRows labels indexes cost (none : Option (List χ)), t.2.2.2 = none := by
  intro labels
  induction labels with
  | nil => intro indexes cost; cases indexes <;> simp [repoRows]
  | cons b bs ih =>
    intro indexes cost
    cases indexes with
    | nil => simp [repoRows]
    | cons k ks =>
      simp only [repoRows, List.mem_cons]
      rintro t (rfl | ht)
      · rfl
      · exact ih ks _ t ht

theorem repoRows_some {κ β χ : Type} : ∀ (labels : List β) (indexes : List κ) (cost : Option (List ℚ)) (xs : List χ),
    indexes.length ≤ xs.length → ∀ t ∈ repoRows labels indexes cost (some xs), t.2.2.2.isSome = true := by
  intro labels
  induction labels with
  | nil => intro indexes cost xs _; cases indexes <;> simp [repoRows]
  | cons b bs ih =>
    intro indexes cost xs hl
    cases indexes with
    | nil => simp [repoRows]
    | cons k ks =>
      cases xs with
      | nil => simp at hl
      | cons x xs =>
        simp only [repoRows, List.mem_cons]
        rintro t (rfl | ht)
        · rfl
        · exact ih ks _ xs (by simpa using hl) t ht

theorem Arg.length_toList {α : Type} (a : Arg α) : a.toList.length = a.len := by cases a <;> rfl

namespace ERepo
variable {κ β χ : Type} [DecidableEq κ] [DecidableEq χ]

theorem Holds.addMany {w : Bool} : ∀ (ts : List (κ × β × Option ℚ × Option χ)) {o o' : ERepo κ β χ} {rows : List (Row κ β χ)},
    Holds w o rows → NoClash (rows ++ ts.map (fun t => keep w (rowOf t))) → o.addMany ts = (o', none) →
    Holds w o' (rows ++ ts.map (fun t => keep w (rowOf t))) := by
  intro ts
  induction ts with
  | nil => intro o o' rows hh _ h; simp only [ERepo.addMany] at h; cases h; simpa using hh
  | cons t r ih =>
    intro o o' rows hh ht h
    obtain ⟨k, b, c, x⟩ := t
    simp only [ERepo.addMany] at h
    have e : rows ++ ((k, b, c, x) :: r).map (fun t => keep w (rowOf t)) =
        (rows ++ [keep w (rowOf (k, b, c, x))]) ++ r.map (fun t => keep w (rowOf t)) := by simp
    rw [e] at ht ⊢
    split at h
    · rename_i o1 h1
      exact ih (Holds.add (r := ⟨k, b, x⟩) hh (noClash_append ht).1 h1) ht h
    · cases h

theorem addMany_ok : ∀ (ts : List (κ × β × Option ℚ × Option χ)) (o : ERepo κ β χ),
    (o.hasEx = true → ∀ t ∈ ts, t.2.2.2.isSome = true) → (o.addMany ts).2 = none := by
  intro ts
  induction ts with
  | nil => intro o _; rfl
  | cons t r ih =>
    intro o h
    obtain ⟨k, b, c, x⟩ := t
    simp only [ERepo.addMany]
    split
    · rename_i o1 h1
      apply ih
      intro h2 t ht
      refine h ?_ t (by simp [ht])
      unfold ERepo.add at h1
      by_cases he : o.hasEx = true
      · exact he
      · rw [if_neg he] at h1; cases h1; exact absurd h2 he
    · rename_i o1 e h1
      obtain ⟨-, h2, rfl⟩ := add_fail h1
      exact absurd (h h2 (k, b, c, none) (by simp)) (by simp)

/-- A failing `update_query` changes nothing. -/
theorem updateQuery_fail {o o' : ERepo κ β χ} {indexes : Arg κ} {labels : Arg β} {cost : Option (Arg ℚ)} {examples : Option (Arg χ)}
    {e : PyErr} (h : o.updateQuery indexes labels cost examples = (o', some e)) : o' = o := by
  unfold ERepo.updateQuery at h
  split at h
  · rename_i hlen
    split at h
    · rename_i o1 e1 h1
      cases h
      cases examples with
      | none =>
        revert h1
        simp only [Option.map_none]
        have hn := repoRows_none (χ := χ) labels.toList indexes.toList (cost.map Arg.toList)
        generalize repoRows labels.toList indexes.toList (cost.map Arg.toList) (none : Option (List χ)) = ts at hn
        intro h1
        by_cases hx : o.hasEx = true
        · cases ts with
          | nil => simp [ERepo.addMany] at h1
          | cons t r =>
            obtain ⟨k, b, c, x⟩ := t
            have : x = none := hn (k, b, c, x) (by simp)
            subst this
            simp only [ERepo.addMany, ERepo.add, hx, if_true, Prod.mk.injEq] at h1
            exact h1.1.symm
        · have := addMany_ok ts o (fun h => absurd h hx)
          rw [h1] at this; cases this
      | some xs =>
        have hl : indexes.toList.length ≤ xs.toList.length := by
          rw [Arg.length_toList, Arg.length_toList]
          simp only [oneToOne, List.all_cons, Bool.and_eq_true, decide_eq_true_eq, Option.map_some] at hlen
          omega
        have := addMany_ok (repoRows labels.toList indexes.toList (cost.map Arg.toList) (some xs.toList)) o
          (fun _ => repoRows_some _ _ _ _ hl)
        simp only [Option.map_some] at h1
        rw [h1] at this; cases this
    · cases h
  · cases h; rfl

/-- Histories of a repository without clashes: construction, `add`, `update_query`, `discard` in any order, successful or not, where no
index and no example is stored while it is already there. The list is the abstract table of rows. -/
inductive Hist (w : Bool) : ERepo κ β χ → List (Row κ β χ) → Prop
  | new {o : ERepo κ β χ} {rows : List (Row κ β χ)} (labels : List β) (indexes : List κ) (examples : Option (List χ)) :
      examples.isSome = w → RowsOf rows labels indexes examples → NoClash rows → ERepo.new labels indexes examples = .ok o → Hist w o rows
  | add {o o' : ERepo κ β χ} {rows : List (Row κ β χ)} (r : Row κ β χ) (c : Option ℚ) :
      Hist w o rows → NoClash (rows ++ [keep w r]) → o.add r.index r.label c r.ex = (o', none) → Hist w o' (rows ++ [keep w r])
  | addFails {o o' : ERepo κ β χ} {rows : List (Row κ β χ)} (k : κ) (b : β) (c : Option ℚ) (x : Option χ) (e : PyErr) :
      Hist w o rows → o.add k b c x = (o', some e) → Hist w o' rows
  | update {o o' : ERepo κ β χ} {rows rs : List (Row κ β χ)} (indexes : Arg κ) (labels : Arg β) (cost : Option (Arg ℚ))
      (examples : Option (Arg χ)) : Hist w o rows → RowsOf rs labels.toList indexes.toList (examples.map Arg.toList) →
      NoClash (rows ++ rs.map (keep w)) → o.updateQuery indexes labels cost examples = (o', none) → Hist w o' (rows ++ rs.map (keep w))
  | updateFails {o o' : ERepo κ β χ} {rows : List (Row κ β χ)} (indexes : Arg κ) (labels : Arg β) (cost : Option (Arg ℚ))
      (examples : Option (Arg χ)) (e : PyErr) : Hist w o rows → o.updateQuery indexes labels cost examples = (o', some e) → Hist w o' rows
  | discardIndex {o o' : ERepo κ β χ} {rows : List (Row κ β χ)} (k : κ) (res : Option PyErr) :
      Hist w o rows → o.discard (some k) none = (o', res) → Hist w o' (rows.filter (fun r => decide (r.index ≠ k)))
  | discardExample {o o' : ERepo κ β χ} {rows : List (Row κ β χ)} (x : χ) (res : Option PyErr) :
      Hist w o rows → o.discard none (some x) = (o', res) → Hist w o' (rows.filter (fun r => decide (r.ex ≠ some x)))

theorem Hist.holds {w : Bool} {o : ERepo κ β χ} {rows : List (Row κ β χ)} (h : Hist w o rows) : Holds w o rows := by
  induction h with
  | new labels indexes examples hw hr ht h => subst hw; exact Holds.new hr ht h
  | add r c _ ht h ih => exact ih.add ht h
  | addFails k b c x e _ h ih => rw [(add_fail h).1]; exact ih
  | @update o o' rows rs indexes labels cost examples _ hr ht h ih =>
    unfold ERepo.updateQuery at h
    split at h
    · split at h
      · cases h
      · rename_i o1 h1
        cases h
        have e := repoRows_rowOf (cost.map Arg.toList) rs _ _ _ hr
        have e' : rs.map (keep w) = (repoRows labels.toList indexes.toList (cost.map Arg.toList) (examples.map Arg.toList)).map
            (fun t => keep w (rowOf t)) := by
          conv_lhs => rw [← e]
          rw [List.map_map]; rfl
        rw [e'] at ht ⊢
        have := Holds.addMany _ ih ht h1
        exact ⟨this.flag, this.table, this.indexes, this.label, this.ex, this.noex, this.i2e, this.e2i⟩
    · cases h
  | updateFails indexes labels cost examples e _ h ih => rw [updateQuery_fail h]; exact ih
  | discardIndex k res _ h ih =>
    have := (ih.discardIx k).2
    rw [h] at this; exact this
  | @discardExample o o' rows x res _ h ih =>
    cases w with
    | true =>
      have := (ih.discardEx x).2
      rw [h] at this; exact this
    | false =>
      simp only [ERepo.discard, ERepo.discardEx, ih.flag, Bool.false_eq_true, if_false, Prod.mk.injEq] at h
      rw [← h.1]
      have : rows.filter (fun r => decide (r.ex ≠ some x)) = rows := by
        rw [List.filter_eq_self]
        intro r hr
        simp [ih.noex rfl r hr]
      rw [this]; exact ih

/-- C29: `get_training_data` returns the rows of the table, aligned, one per index. Missing: an index (or example) which is stored while
it is already there, see the violations. -/
theorem C29_training_data_partial {w : Bool} {o : ERepo κ β χ} {rows : List (Row κ β χ)} (h : Hist w o rows) :
    o.getTrainingData = .ok (rows.filterMap Row.ex, rows.map Row.label, rows.map Row.index) ∧
    (rows.map Row.index).Nodup ∧ (w = true → (rows.filterMap Row.ex).length = rows.length) := by
  have hh := h.holds
  refine ⟨?_, hh.table.nodup, fun hw => ?_⟩
  · unfold ERepo.getTrainingData
    rw [hh.indexes, hh.training rows (fun _ h => h)]
    rfl
  · have : ∀ l : List (Row κ β χ), (∀ r ∈ l, ∃ x, r.ex = some x) → (l.filterMap Row.ex).length = l.length := by
      intro l
      induction l with
      | nil => simp
      | cons r l ih =>
        intro h
        obtain ⟨x, hx⟩ := h r (by simp)
        simp [hx, ih (fun s hs => h s (by simp [hs]))]
    exact this rows (hh.ex hw)

/-- C29: `retrieve_by_indexes` returns the rows of the requested indexes in the order requested, leaving out unknown ones; the order
is that of the request, and labels and examples belong to the same rows. -/
theorem C29_retrieve_by_indexes_partial {w : Bool} {o : ERepo κ β χ} {rows : List (Row κ β χ)} (h : Hist w o rows) (ks : Arg κ) :
    ∃ rs : List (Row κ β χ), (∀ r ∈ rs, r ∈ rows) ∧
      rs.map Row.index = ks.toList.filter (fun k => decide (k ∈ rows.map Row.index)) ∧
      o.retrieveByIndexes ks = .ok (rs.filterMap Row.ex, rs.map Row.label) := h.holds.retrieve ks.toList

/-- C29: the same for `retrieve_by_examples`. -/
theorem C29_retrieve_by_examples_partial {o : ERepo κ β χ} {rows : List (Row κ β χ)} (h : Hist true o rows) (xs : List χ) :
    ∃ rs : List (Row κ β χ), (∀ r ∈ rs, r ∈ rows) ∧
      rs.map Row.ex = (xs.filter (fun x => decide (some x ∈ rows.map Row.ex))).map some ∧
      o.retrieveByExamples xs = .ok (rs.filterMap Row.ex, rs.map Row.label) := by
  have hh := h.holds
  obtain ⟨rs, h1, h2, h3⟩ := hh.retrieve (xs.filterMap (fun x => dictGet x o.exa2ind))
  refine ⟨rs, h1, ?_, by simp [ERepo.retrieveByExamples, hh.flag, h3]⟩
  clear h3
  induction xs generalizing rs with
  | nil => simp_all
  | cons x xs ih =>
    cases hd : dictGet x o.exa2ind with
    | none =>
      have : ¬ some x ∈ rows.map Row.ex := by
        rw [List.mem_map]
        rintro ⟨r, hr, he⟩
        rw [(hh.e2i rfl r.index x).2 ⟨r, hr, rfl, he⟩] at hd; cases hd
      rw [List.filter_cons_of_neg (by simpa using this)]
      simp only [List.filterMap_cons, hd] at h2
      exact ih rs h1 h2
    | some k =>
      obtain ⟨r, hr, rfl, he⟩ := (hh.e2i rfl k x).1 hd
      simp only [List.filterMap_cons, hd] at h2
      rw [List.filter_cons_of_pos (by simpa using ⟨r, hr, rfl⟩)] at h2
      cases rs with
      | nil => simp at h2
      | cons s rs =>
        simp only [List.map_cons, List.cons.injEq] at h2
        have hs := hh.table.index_inj (h1 s (by simp)) hr h2.1
        subst hs
        rw [List.filter_cons_of_pos (by simpa using ⟨s, hr, he⟩), List.map_cons, List.map_cons, he,
          ih rs (fun t ht => h1 t (by simp [ht])) h2.2]

/-- C29: `in` says whether the index is in the table, and a call of `discard` with one argument never raises in a repository with
examples. -/
theorem C29_contains_and_discard {w : Bool} {o : ERepo κ β χ} {rows : List (Row κ β χ)} (h : Hist w o rows) :
    (∀ k, o.contains k = true ↔ k ∈ rows.map Row.index) ∧ (∀ k, (o.discard (some k) none).2 = none) ∧
    (w = true → ∀ x, (o.discard none (some x)).2 = none) := by
  have hh := h.holds
  refine ⟨fun k => ?_, fun k => (hh.discardIx k).1, ?_⟩
  · unfold ERepo.contains
    rw [Option.isSome_iff_exists, List.mem_map]
    constructor
    · rintro ⟨b, hb⟩
      obtain ⟨r, hr, h1, -⟩ := (hh.label k b).1 hb
      exact ⟨r, hr, h1⟩
    · rintro ⟨r, hr, rfl⟩
      exact ⟨r.label, (hh.label _ _).2 ⟨r, hr, rfl, rfl⟩⟩
  · rintro rfl x
    exact (hh.discardEx x).1

/-- C29, violation: storing a label for an index which is already there (a repeated query) makes a second row for that index, with the
new label in both rows. -/
theorem C29_repeated_index_violation {o : ERepo κ β χ} {rows : List (Row κ β χ)} (h : Hist false o rows) (r : Row κ β χ) (hr : r ∈ rows)
    (b : β) :
    ∃ o', o.add r.index b none none = (o', none) ∧
      o'.getTrainingData = .ok ([], rows.map (fun s => if s.index = r.index then b else s.label) ++ [b], rows.map Row.index ++ [r.index]) ∧
      ¬ (rows.map Row.index ++ [r.index]).Nodup := by
  have hh := h.holds
  refine ⟨o.addRest r.index b none, by simp [ERepo.add, hh.flag], ?_, ?_⟩
  · have hf : (o.addRest r.index b none).hasEx = false := hh.flag
    have key : ∀ l : List (Row κ β χ), (∀ s ∈ l, s ∈ rows) → (o.addRest r.index b none).training (l.map Row.index ++ [r.index]) =
        .ok ([], l.map (fun s => if s.index = r.index then b else s.label) ++ [b]) := by
      intro l
      induction l with
      | nil =>
        intro _
        simp only [List.map_nil, List.nil_append, ERepo.training, hf]
        simp [ERepo.addRest, dictGet_dictSet, Except.map]
      | cons s l ih =>
        intro hs
        simp only [List.map_cons, List.cons_append, ERepo.training, hf, ih (fun t ht => hs t (by simp [ht]))]
        simp only [ERepo.addRest, dictGet_dictSet]
        by_cases he : s.index = r.index
        · simp [he, Except.map]
        · simp [he, Except.map, (hh.label s.index s.label).2 ⟨s, hs s (by simp), rfl, rfl⟩]
    have hi : (o.addRest r.index b none).indexes = rows.map Row.index ++ [r.index] := by
      simp [ERepo.addRest, hh.indexes]
    unfold ERepo.getTrainingData
    rw [hi, key rows (fun _ h => h)]
    rfl
  · intro hn
    rw [List.nodup_append] at hn
    exact hn.2.2 r.index (List.mem_map_of_mem hr) r.index (by simp) rfl

/-- C29, violation: discarding such an index removes its label but only one of the two rows: afterwards `get_training_data` raises
`KeyError`. -/
theorem C29_discard_after_repetition_violation {o : ERepo κ β χ} {rows : List (Row κ β χ)} (h : Hist false o rows) (r : Row κ β χ)
    (hr : r ∈ rows) (b : β) :
    ∃ o' o'', o.add r.index b none none = (o', none) ∧ o'.discard (some r.index) none = (o'', none) ∧
      o''.getTrainingData = .error .keyError := by
  have hh := h.holds
  have hf : (o.addRest r.index b none).hasEx = false := hh.flag
  have hg : dictGet r.index (o.addRest r.index b none).ind2label = some b := by simp [ERepo.addRest, dictGet_dictSet]
  have hm : r.index ∈ (o.addRest r.index b none).indexes := by simp [ERepo.addRest]
  refine ⟨o.addRest r.index b none,
    { o.addRest r.index b none with
      indexes := (o.addRest r.index b none).indexes.erase r.index
      ind2label := dictErase r.index (o.addRest r.index b none).ind2label }, by simp [ERepo.add, hh.flag], ?_, ?_⟩
  · simp [ERepo.discard, ERepo.discardIx, hm, hg, hf]
  · have key : ∀ (p : ERepo κ β χ), p.hasEx = false → dictGet r.index p.ind2label = none → ∀ l : List κ, r.index ∈ l →
        ∃ e, p.training l = .error e ∧ e = .keyError := by
      intro p hp hg l
      induction l with
      | nil => simp
      | cons k l ih =>
        intro hm
        simp only [ERepo.training, hp]
        by_cases hk : k = r.index
        · subst hk; simp [hg]
        · have hm' : r.index ∈ l := by
            rcases List.mem_cons.1 hm with h | h
            · exact absurd h.symm hk
            · exact h
          obtain ⟨e, h1, h2⟩ := ih hm'
          cases hk : dictGet k p.ind2label with
          | none => simp
          | some c => simp [h1, h2, Except.map]
    have hmem : r.index ∈ ((o.addRest r.index b none).indexes.erase r.index) := by
      simp only [ERepo.addRest]
      have h1 : r.index ∈ o.indexes := by rw [hh.indexes]; exact List.mem_map_of_mem hr
      rw [List.erase_append_left _ h1]
      simp
    obtain ⟨e, h1, rfl⟩ := key
      { o.addRest r.index b none with
        indexes := (o.addRest r.index b none).indexes.erase r.index
        ind2label := dictErase r.index (o.addRest r.index b none).ind2label } hf (by simp [dictGet_dictErase]) _ hmem
    unfold ERepo.getTrainingData
    rw [h1]
    rfl

/-- C29, violation: two indexes with equal examples; after discarding one of them, discarding the other raises `KeyError`. -/
theorem C29_equal_examples_violation (b c : β) (i j : κ) (hij : i ≠ j) (x : χ) :
    ∃ o o' o'', ERepo.new [b, c] [i, j] (some [x, x]) = .ok o ∧ o.discard (some i) none = (o', none) ∧
      o'.discard (some j) none = (o'', some .keyError) := by
  have hji : j ≠ i := fun h => hij h.symm
  refine ⟨⟨[i, j], true, true, [(x, j)], [(i, x), (j, x)], [(i, b), (j, c)], 0, [], 0, []⟩,
    ⟨[j], true, true, [], [(j, x)], [(j, c)], 0, [], 0, []⟩, ⟨[], true, true, [], [], [], 0, [], 0, []⟩, ?_, ?_, ?_⟩
  · simp [ERepo.new, oneToOne, dictOfList, dictSet, hij]
  · simp [ERepo.discard, ERepo.discardIx, dictGet, dictErase, hji]
  · simp [ERepo.discard, ERepo.discardIx, dictGet, dictErase]

/-- C29, violation: `clear` on a repository without examples raises, and leaves a repository in which all indexes are still found although
there is no training data any more. -/
theorem C29_clear_violation (labels : List β) (indexes : List κ) (o : ERepo κ β χ) (h : ERepo.new labels indexes none = .ok o) :
    o.clear.2 = some .attributeError ∧ o.clear.1.getTrainingData = .ok ([], [], []) ∧ ∀ k, o.clear.1.contains k = o.contains k := by
  unfold ERepo.new at h
  split at h
  · cases h
    exact ⟨rfl, rfl, fun _ => rfl⟩
  · cases h

/-- A repository with examples can be cleared and used again (then without examples). -/
theorem C29_clear_with_examples (labels : List β) (indexes : List κ) (xs : List χ) (o : ERepo κ β χ)
    (h : ERepo.new labels indexes (some xs) = .ok o) : o.clear.2 = none ∧ Holds false o.clear.1 [] := by
  unfold ERepo.new at h
  split at h
  · cases h
    refine ⟨rfl, rfl, by simp [NoClash], rfl, ?_, by simp, by simp, by simp, by simp⟩
    intro k b
    simp [ERepo.clear, dictGet]
  · cases h

/-- What happens to an index: a label is stored, or it is discarded. -/
inductive Ev (κ β : Type) where
  | set (k : κ) (b : β)
  | del (k : κ)

def Ev.key : Ev κ β → κ
  | .set k _ => k
  | .del k => k

/-- Arbitrary histories (repetitions and failing calls included) of a repository without examples, with the log of events. -/
inductive AnyHist : ERepo κ β χ → List (Ev κ β) → Prop
  | new {o : ERepo κ β χ} (labels : List β) (indexes : List κ) : ERepo.new labels indexes none = .ok o →
      AnyHist o ((indexes.zip labels).map (fun p => .set p.1 p.2))
  | add {o : ERepo κ β χ} {log : List (Ev κ β)} (k : κ) (b : β) (c : Option ℚ) (x : Option χ) :
      AnyHist o log → AnyHist (o.add k b c x).1 (log ++ [.set k b])
  | discard {o : ERepo κ β χ} {log : List (Ev κ β)} (k : κ) : AnyHist o log → AnyHist (o.discard (some k) none).1 (log ++ [.del k])

theorem AnyHist.inv {o : ERepo κ β χ} {log : List (Ev κ β)} (h : AnyHist o log) :
    o.hasEx = false ∧ (∀ k b, dictGet k o.ind2label = some b → k ∈ o.indexes) ∧
    ∀ k b, dictGet k o.ind2label = some b ↔ MostRecent log Ev.key k (.set k b) := by
  have snoc : ∀ (log : List (Ev κ β)) (e : Ev κ β) (k : κ) (b : β), MostRecent (log ++ [e]) Ev.key k (.set k b) ↔
      (e = .set k b ∨ (e.key ≠ k ∧ MostRecent log Ev.key k (.set k b))) := by
    intro log e k b
    rw [mostRecent_iff, lastBy_snoc, mostRecent_iff]
    by_cases he : e.key = k
    · simp only [he, decide_true, if_true, ne_eq, not_true_eq_false, false_and, or_false, Option.some.injEq]
    · simp only [he, decide_false, Bool.false_eq_true, if_false, ne_eq, not_false_eq_true, true_and]
      constructor
      · exact .inr
      · rintro (rfl | h)
        · exact absurd rfl he
        · exact h
  induction h with
  | new labels indexes h =>
    unfold ERepo.new at h
    split at h
    · cases h
      have key : ∀ k b, dictGet k (dictOfList (indexes.zip labels)) = some b ↔
          MostRecent ((indexes.zip labels).map (fun p => Ev.set p.1 p.2)) Ev.key k (.set k b) := by
        intro k b
        generalize indexes.zip labels = l
        induction l using List.reverseRecOn with
        | nil => simp [dictOfList, dictGet, MostRecent]
        | append_singleton l p ih =>
          have : dictOfList (l ++ [p]) = dictSet p.1 p.2 (dictOfList l) := by simp [dictOfList]
          rw [this, dictGet_dictSet, List.map_append, List.map_singleton, snoc]
          by_cases hk : k = p.1
          · subst hk
            simp [Ev.key]
          · have hk' : p.1 ≠ k := fun h => hk h.symm
            simp only [hk, if_false, ih, Ev.set.injEq, hk', false_and, Ev.key, ne_eq, not_false_eq_true, true_and, false_or]
      refine ⟨rfl, ?_, key⟩
      intro k b hb
      obtain ⟨hm, -⟩ := mostRecent_mem ((key k b).1 hb)
      obtain ⟨p, hp, he⟩ := List.mem_map.1 hm
      cases he
      exact (List.of_mem_zip hp).1
    · cases h
  | @add o log k b c x _ ih =>
    obtain ⟨h1, h2, h3⟩ := ih
    have : (o.add k b c x).1 = o.addRest k b c := by simp [ERepo.add, h1]
    rw [this]
    refine ⟨h1, ?_, ?_⟩
    · intro k' b' hb
      simp only [ERepo.addRest, dictGet_dictSet] at hb ⊢
      split at hb
      · simp [*]
      · simp [h2 k' b' hb]
    · intro k' b'
      simp only [ERepo.addRest, dictGet_dictSet]
      rw [snoc]
      by_cases hk : k' = k
      · subst hk; simp [Ev.key]
      · have hk' : k ≠ k' := fun h => hk h.symm
        simp only [hk, if_false, h3, Ev.set.injEq, hk', false_and, Ev.key, ne_eq, not_false_eq_true, true_and, false_or]
  | @discard o log k _ ih =>
    obtain ⟨h1, h2, h3⟩ := ih
    have hdel : ∀ k' b', MostRecent (log ++ [.del k]) Ev.key k' (.set k' b') ↔ (k ≠ k' ∧ dictGet k' o.ind2label = some b') := by
      intro k' b'
      rw [snoc, h3]; simp [Ev.key]
    by_cases hk : k ∈ o.indexes
    · cases hg : dictGet k o.ind2label with
      | none =>
        have : (o.discard (some k) none).1 = { o with indexes := o.indexes.erase k } := by
          simp [ERepo.discard, ERepo.discardIx, hk, hg]
        rw [this]
        refine ⟨h1, ?_, ?_⟩
        · intro k' b' hb
          have hne : k' ≠ k := by rintro rfl; simp [hg] at hb
          exact (List.mem_erase_of_ne hne).2 (h2 k' b' hb)
        · intro k' b'
          rw [hdel]
          constructor
          · intro hb
            exact ⟨by rintro rfl; simp [hg] at hb, hb⟩
          · exact fun h => h.2
      | some b =>
        have : (o.discard (some k) none).1 = { o with indexes := o.indexes.erase k, ind2label := dictErase k o.ind2label } := by
          simp [ERepo.discard, ERepo.discardIx, hk, hg, h1]
        rw [this]
        refine ⟨h1, ?_, ?_⟩
        · intro k' b' hb
          simp only [dictGet_dictErase] at hb
          split at hb
          · cases hb
          · rename_i hne
            exact (List.mem_erase_of_ne hne).2 (h2 k' b' hb)
        · intro k' b'
          rw [hdel]
          simp only [dictGet_dictErase]
          by_cases he : k' = k
          · simp [he]
          · simp [he, Ne.symm he]
    · have : (o.discard (some k) none).1 = o := by simp [ERepo.discard, ERepo.discardIx, hk]
      rw [this]
      refine ⟨h1, h2, ?_⟩
      intro k' b'
      rw [hdel]
      constructor
      · intro hb
        exact ⟨by rintro rfl; exact hk (h2 _ _ hb), hb⟩
      · exact fun h => h.2

/-- C29, for arbitrary histories of a repository without examples (repeated indexes and failing discards included): `retrieve_by_indexes`
returns for each requested index, in order, the label of its last event, skipping those never stored or discarded since. -/
theorem C29_retrieve_last_label {o : ERepo κ β χ} {log : List (Ev κ β)} (h : AnyHist o log) (ks : List κ) :
    ∃ bs : List (κ × β), o.retrieveByIndexes (.many ks) = .ok ([], bs.map Prod.snd) ∧ List.Sublist (bs.map Prod.fst) ks ∧
      (∀ p ∈ bs, MostRecent log Ev.key p.1 (.set p.1 p.2)) ∧
      (∀ k ∈ ks, k ∈ bs.map Prod.fst ∨ ∀ b, ¬ MostRecent log Ev.key k (.set k b)) := by
  obtain ⟨h1, -, h3⟩ := h.inv
  show ∃ bs : List (κ × β), o.retrieve ks = _ ∧ _
  induction ks with
  | nil => exact ⟨[], rfl, by simp, by simp, by simp⟩
  | cons k ks ih =>
    obtain ⟨bs, e1, e2, e3, e4⟩ := ih
    cases hg : dictGet k o.ind2label with
    | none =>
      refine ⟨bs, by simp [ERepo.retrieve, hg, e1], e2.trans (List.sublist_cons_self _ _), e3, ?_⟩
      intro k' hk'
      rcases List.mem_cons.1 hk' with rfl | hk'
      · right; intro b hb
        rw [(h3 k' b).2 hb] at hg; cases hg
      · exact e4 k' hk'
    | some b =>
      refine ⟨(k, b) :: bs, by simp [ERepo.retrieve, hg, e1, h1, Except.map], by simpa using e2.cons_cons k, ?_, ?_⟩
      · intro p hp
        rcases List.mem_cons.1 hp with rfl | hp
        · exact (h3 k b).1 hg
        · exact e3 p hp
      · intro k' hk'
        rcases List.mem_cons.1 hk' with rfl | hk'
        · left; simp
        · rcases e4 k' hk' with h | h
          · left; simp only [List.map_cons, List.mem_cons]; exact .inr h
          · exact .inr h

/-- Index 7 is stored twice, then discarded, then stored again. -/
example : ∃ o : ERepo Nat String Unit, AnyHist o [.set 7 "a", .set 7 "b", .del 7, .set 7 "c"] ∧
    o.retrieveByIndexes (.many [7, 8]) = .ok ([], ["c"]) := by
  obtain ⟨o, ho⟩ : ∃ o, ERepo.new (χ := Unit) ["a"] [7] none = .ok o := ⟨_, rfl⟩
  refine ⟨_, .add 7 "c" none none (.discard 7 (.add 7 "b" none none (.new ["a"] [7] ho))), ?_⟩
  cases ho
  rfl

/-- A history: two rows, one added, an update with two more, one discarded by index, one by example. -/
def demo0 : Except PyErr (ERepo Nat String (List Nat)) := ERepo.new ["a", "b"] [11, 32] (some [[1, 1], [2, 2]])

def demo1 : ERepo Nat String (List Nat) × Option PyErr :=
  match demo0 with
  | .ok o => o.updateQuery (.many [12, 13]) (.many ["c", "d"]) (some (.many [1, 2])) (some (.many [[3, 3], [4, 4]]))
  | .error _ => (⟨[], true, true, [], [], [], 0, [], 0, []⟩, none)

example : demo1.2 = none ∧ demo1.1.getTrainingData = .ok ([[1, 1], [2, 2], [3, 3], [4, 4]], ["a", "b", "c", "d"], [11, 32, 12, 13]) := by
  constructor <;> rfl

def demoRows : List (Row Nat String (List Nat)) := [⟨11, "a", some [1, 1]⟩, ⟨32, "b", some [2, 2]⟩]

def demoNew : List (Row Nat String (List Nat)) := [⟨12, "c", some [3, 3]⟩, ⟨13, "d", some [4, 4]⟩]

example : ∃ o : ERepo Nat String (List Nat), Hist true o
    ((demoRows ++ demoNew.map (keep true)).filter (fun r => decide (r.index ≠ 32))) := by
  refine ⟨_, .discardIndex 32 _ (.update (rs := demoNew) (.many [12, 13]) (.many ["c", "d"]) none
    (some (.many [[3, 3], [4, 4]])) (.new (rows := demoRows) ["a", "b"] [11, 32] (some [[1, 1], [2, 2]]) rfl ?_ ?_ rfl) ?_ ?_ rfl) rfl⟩
  · simp [RowsOf, demoRows]
  · simp [NoClash, demoRows]
  · simp [RowsOf, Arg.toList, demoNew]
  · simp [NoClash, demoRows, demoNew, keep]

end ERepo
end Alipy

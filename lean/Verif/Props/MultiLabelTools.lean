import Verif.Proof.MultiLabelTools
import Verif.Proof.Lists

/-! # C09, C13: multi-label index lists -/
namespace Alipy
open Spec

/-! ## C09 -/

/-- C09: `integrate_multilabel_index` on any list of legal indexes succeeds; the result has one entry per instance
mentioned, denotes exactly the same pairs, and an instance appears as `(e,)` exactly if all its labels occur. -/
theorem C09_integrate_keeps_the_pairs (L : Int) (hL : 0 < L) (ixs : List Ix) (h : ∀ ix ∈ ixs, Legal L ix) :
    ∃ out, integrate ixs (some L) = .ok out ∧
      (∀ p, DenotesAny L out p ↔ DenotesAny L ixs p) ∧
      (out.map inst).Nodup ∧ (∀ e, some e ∈ out.map inst ↔ some e ∈ ixs.map inst) ∧
      (∀ e, Ix.all e ∈ out ↔ (some e ∈ ixs.map inst ∧ ∀ l, 0 ≤ l → l < L → DenotesAny L ixs (e, l))) := by
  obtain ⟨d, hd, hi, hp, hk⟩ := integrateLoop_legal (L := L) ixs [] ⟨by simp, by simp [dictGet], by simp [dictGet]⟩ h
  have hp' : ∀ p, dictHas d p ↔ DenotesAny L ixs p := fun p => by rw [hp]; simp [dictHas, dictGet]
  refine ⟨integrateOut L d, by simp [integrate, hL, hd], ?_, ?_, ?_, ?_⟩
  · intro p; rw [integrateOut_mem hL hi, hp']
  · rw [integrateOut_inst]; exact hi.keys.map (fun a b hab => by simpa using hab)
  · intro e
    rw [integrateOut_inst]
    have := hk e
    simp only [List.map_nil, List.not_mem_nil, false_or] at this
    rw [← this]
    constructor
    · intro hm; obtain ⟨a, ha, he⟩ := List.mem_map.1 hm; cases he; exact ha
    · intro hm; exact List.mem_map.2 ⟨e, hm, rfl⟩
  · intro e
    have hke := hk e
    simp only [List.map_nil, List.not_mem_nil, false_or] at hke
    rw [← hke]
    constructor
    · intro hm
      simp only [integrateOut, List.mem_map] at hm
      obtain ⟨⟨e', ls⟩, hmem, he⟩ := hm
      simp only at he
      split at he
      · rename_i hlen
        cases he
        have hg := dictGet_of_mem hi.keys hmem
        refine ⟨List.mem_map.2 ⟨_, hmem, rfl⟩, fun l h0 h1 => ?_⟩
        rw [← hp']
        exact ⟨ls, hg, (full_labels hL (hi.nodup _ _ hg) (hi.range _ _ hg)).1 hlen l h0 h1⟩
      · cases he
    · rintro ⟨hm, hall⟩
      obtain ⟨⟨e', ls⟩, hmem, rfl⟩ := List.mem_map.1 hm
      have hg := dictGet_of_mem hi.keys hmem
      simp only [integrateOut, List.mem_map]
      refine ⟨(e', ls), hmem, ?_⟩
      have : (ls.length : Int) = L := by
        rw [full_labels hL (hi.nodup _ _ hg) (hi.range _ _ hg)]
        intro l h0 h1
        obtain ⟨ls', hg', hl⟩ := (hp' (e', l)).2 (hall l h0 h1)
        simp only at hg'
        rw [hg] at hg'; cases hg'; exact hl
      simp [this]

/-- C09: flattening a list of legal indexes gives exactly the denoted pairs, and flattening the integrated list gives
the same pairs. -/
theorem C09_flatten_of_integrate (L : Int) (hL : 0 < L) (ixs : List Ix) (h : ∀ ix ∈ ixs, Legal L ix) :
    ∃ out ps qs, integrate ixs (some L) = .ok out ∧ flatten ixs (some L) = .ok ps ∧ flatten out (some L) = .ok qs ∧
      (∀ p, p ∈ ps ↔ DenotesAny L ixs p) ∧ (∀ p, p ∈ qs ↔ p ∈ ps) := by
  obtain ⟨d, hd, hi, hp, hk⟩ := integrateLoop_legal (L := L) ixs [] ⟨by simp, by simp [dictGet], by simp [dictGet]⟩ h
  obtain ⟨ps, h1, h2⟩ := flattenLoop_legal h
  obtain ⟨qs, h3, h4⟩ := flattenLoop_legal (integrateOut_legal hi)
  refine ⟨integrateOut L d, ps, qs, by simp [integrate, hL, hd], by simp [flatten, hL, h1], by simp [flatten, hL, h3], h2, ?_⟩
  intro p
  rw [h4, h2, integrateOut_mem hL hi, hp]
  simp [dictHas, dictGet]

/-- Why legality is asked for: as many different labels as there are in the label set, some of them outside of it, are turned into "all labels", so that labels which were not named are
in the result. -/
theorem C09_out_of_range_label_breaks_integration {L e l : Int} {b : Bool} {ls : List Int} (hn : ls.Nodup) (hL : (ls.length : Int) = L) (h0 : 0 ≤ l) (hl : l < L) (hnot : l ∉ ls) :
    integrate [.pair e (.iter b ls)] (some L) = .ok [.all e] ∧ DenotesAny L [.all e] (e, l) ∧ ¬ DenotesAny L [.pair e (.iter b ls)] (e, l) := by
  have hu : setUnion [] ls = ls := by
    have key : ∀ (m acc : List Int), (acc ++ m).Nodup → setUnion acc m = acc ++ m := by
      intro m
      induction m with
      | nil => intro acc _; simp [setUnion]
      | cons a m ih =>
        intro acc h
        have ha : a ∉ acc := fun hm => (List.nodup_append.1 h).2.2 a hm a (by simp) rfl
        simp [setUnion, ha, ih (acc ++ [a]) (by simpa using h)]
    simpa using key ls [] (by simpa using hn)
  refine ⟨?_, ⟨.all e, by simp, by simp [Denotes, h0, hl]⟩, ?_⟩
  · have hpos : 0 < L := by omega
    simp [integrate, hpos, integrateLoop, integrateStep, dictGet, dictSet, integrateOut, Second.toList, hu, hL]
  · rintro ⟨ix, hix, hd⟩
    simp at hix; subst hix
    simp [Denotes] at hd
    exact hnot hd

/-- Labels 0 and 5 of instance 3 with two labels become `(3,)`. -/
example : integrate [.pair 3 (.iter true [0, 5])] (some 2) = .ok [.all 3] := by decide

example : (0 : Int) < 3 ∧ ∀ ix ∈ [Ix.pair 4 (.iter false [2, 0]), .pair 1 (.scal 1), .all 7, .pair 4 (.scal 1)], Legal 3 ix := by
  simp [Legal]
example : integrate [.pair 4 (.iter false [2, 0]), .pair 1 (.scal 1), .all 7, .pair 4 (.scal 1)] (some 3) =
    .ok [.all 4, .pair 1 (.iter true [1]), .all 7] := by decide

/-! ## C13 -/

theorem copyCells_length (src ls tgt : List Int) : (copyCells src ls tgt).length = tgt.length := by simp [copyCells]

theorem copyCells_get (src ls tgt : List Int) (j : Nat) (hj : j < tgt.length) :
    (copyCells src ls tgt)[j]? = some (if (j : Int) ∈ ls then (src[j]?).getD 0 else (tgt[j]?).getD 0) := by
  simp [copyCells, hj]

theorem setRow_keys (e : Int) (row : List Int) (acc : List (Int × List Int)) :
    (setRow e row acc).map Prod.fst = acc.map Prod.fst := by
  induction acc with
  | nil => rfl
  | cons p r ih =>
    obtain ⟨a, b⟩ := p
    unfold setRow
    split <;> simp [ih]

theorem mem_setRow {e : Int} {row : List Int} {acc : List (Int × List Int)} (hn : (acc.map Prod.fst).Nodup)
    {e' : Int} {r' : List Int} (h : (e', r') ∈ setRow e row acc) : (e' = e ∧ r' = row) ∨ (e' ≠ e ∧ (e', r') ∈ acc) := by
  induction acc with
  | nil => simp [setRow] at h
  | cons p r ih =>
    obtain ⟨a, b⟩ := p
    rw [List.map_cons, List.nodup_cons] at hn
    unfold setRow at h
    split at h
    · rename_i ha
      subst ha
      rcases List.mem_cons.1 h with h2 | h2
      · simp only [Prod.mk.injEq] at h2; exact .inl h2
      · refine .inr ⟨?_, by simp [h2]⟩
        intro heq
        exact hn.1 (List.mem_map.2 ⟨_, h2, heq⟩)
    · rename_i ha
      rcases List.mem_cons.1 h with h | h
      · cases h; exact .inr ⟨ha, by simp⟩
      · rcases ih hn.2 h with h | h
        · exact .inl h
        · exact .inr ⟨h.1, by simp [h.2]⟩

/-- What the rows built so far contain, after the indexes `done`. -/
structure RowInv (data : List (List Int)) (m : Nat) (unknown : Int) (done : List Ix) (acc : List (Int × List Int)) : Prop where
  keys : acc.map Prod.fst = (done.filterMap inst).eraseDups
  rows : ∀ e row, (e, row) ∈ acc → row.length = m ∧ ∀ j : Nat, j < m →
    (DenotesAny m done (e, j) → row[j]? = some (cell data e.toNat j)) ∧
    (¬ DenotesAny m done (e, j) → row[j]? = some unknown)

theorem labelMatrixStep_legal {data : List (List Int)} {m : Nat} {unknown : Int} {done : List Ix}
    {acc : List (Int × List Int)} (hi : RowInv data m unknown done acc) {ix : Ix} (hl : Legal m ix)
    (hb : ∀ e, inst ix = some e → 0 ≤ e ∧ e < data.length) :
    ∃ acc', labelMatrixStep data m unknown acc ix = .ok acc' ∧ RowInv data m unknown (done ++ [ix]) acc' := by
  obtain ⟨e, ls, hinst, hstep, hden⟩ : ∃ e ls, inst ix = some e ∧
      (labelMatrixStep data m unknown acc ix = storeRow data m unknown acc e ls) ∧
      ∀ p : Int × Int, Denotes m ix p ↔ p.1 = e ∧ p.2 ∈ ls := by
    cases ix with
    | nil => exact absurd hl (by simp [Legal])
    | longer e s => exact absurd hl (by simp [Legal])
    | all e =>
      have := hb e rfl
      refine ⟨e, intRange m, rfl, ?_, ?_⟩
      · simp [labelMatrixStep, labelInd, this.2]
      · intro p; simp [Denotes, mem_intRange]
    | pair e s =>
      have := hb e rfl
      cases s with
      | scal l =>
        refine ⟨e, [l], rfl, ?_, ?_⟩
        · simp only [Legal] at hl
          simp [labelMatrixStep, labelInd, this.2, hl.1, hl.2]
        · rintro ⟨a, b⟩; simp [Denotes]
      | iter h ls =>
        refine ⟨e, ls, rfl, ?_, ?_⟩
        · have hf : ls.filter (fun l => decide (0 ≤ l ∧ l < (m : Int))) = ls := by
            rw [List.filter_eq_self]; intro l hl'; simpa using hl l hl'
          simp only [labelMatrixStep, labelInd, this.2, if_true, hf]
        · rintro ⟨a, b⟩; simp [Denotes]
  obtain ⟨h0, h1⟩ := hb e hinst
  have hlt : e.toNat < data.length := by omega
  have hrow : pyRow data e = some data[e.toNat] := by
    simp [pyRow, h0, List.getElem?_eq_getElem hlt]
  have hcell : ∀ j, (data[e.toNat][j]?).getD 0 = cell data e.toNat j := by
    intro j; simp [cell, List.getElem?_eq_getElem hlt]
  have hda : ∀ p, DenotesAny m (done ++ [ix]) p ↔ DenotesAny m done p ∨ (p.1 = e ∧ p.2 ∈ ls) := by
    intro p
    rw [← hden]
    simp only [DenotesAny, List.mem_append, List.mem_singleton]
    constructor
    · rintro ⟨i, hi | rfl, h⟩
      · exact .inl ⟨i, hi, h⟩
      · exact .inr h
    · rintro (⟨i, hi, h⟩ | h)
      · exact ⟨i, .inl hi, h⟩
      · exact ⟨ix, .inr rfl, h⟩
  have hfm : (done ++ [ix]).filterMap inst = done.filterMap inst ++ [e] := by
    simp [List.filterMap_append, hinst]
  have hkn : (acc.map Prod.fst).Nodup := by
    rw [hi.keys]; exact nodup_eraseDups _
  have hother : ∀ e' row, e' ≠ e → (e', row) ∈ acc → row.length = m ∧ ∀ j : Nat, j < m →
      (DenotesAny m (done ++ [ix]) (e', j) → row[j]? = some (cell data e'.toNat j)) ∧
      (¬ DenotesAny m (done ++ [ix]) (e', j) → row[j]? = some unknown) := by
    intro e' row hne hm
    obtain ⟨r1, r2⟩ := hi.rows e' row hm
    refine ⟨r1, fun j hj => ?_⟩
    rw [hda]
    simp only [hne, false_and, or_false]
    exact r2 j hj
  rw [hstep]
  simp only [storeRow, hrow]
  cases hg : dictGet e acc with
  | none =>
    have hne : e ∉ acc.map Prod.fst := (dictGet_eq_none _ _).1 hg
    have hne' : e ∉ done.filterMap inst := by
      rw [hi.keys] at hne; simpa using hne
    refine ⟨_, rfl, ?_, ?_⟩
    · rw [hfm, eraseDups_snoc, if_neg hne']; simp [hi.keys]
    · intro e' row hm
      rcases List.mem_append.1 hm with hm | hm
      · exact hother e' row (by intro heq; exact hne (List.mem_map.2 ⟨_, hm, heq⟩)) hm
      · simp only [List.mem_singleton, Prod.mk.injEq] at hm
        obtain ⟨rfl, rfl⟩ := hm
        refine ⟨by simp [copyCells_length], fun j hj => ?_⟩
        have hnd : ¬ DenotesAny m done (e', (j : Int)) := by
          rintro ⟨i, hi', hd⟩
          apply hne'
          rw [List.mem_filterMap]
          refine ⟨i, hi', ?_⟩
          cases i with
          | nil => simp [Denotes] at hd
          | all a => simp [Denotes] at hd; simp [inst, hd.1]
          | longer a s => simp [Denotes] at hd
          | pair a s => cases s <;> simp [Denotes] at hd <;> simp [inst, hd.1]
        rw [hda]
        simp only [hnd, false_or, true_and]
        rw [copyCells_get _ _ _ _ (by simpa using hj)]
        constructor
        · intro h; simp [h, hcell]
        · intro h; simp [h, hj]
  | some old =>
    have hmem := mem_of_dictGet hg
    have hme : e ∈ done.filterMap inst := by
      have : e ∈ acc.map Prod.fst := List.mem_map.2 ⟨_, hmem, rfl⟩
      rw [hi.keys] at this; simpa using this
    refine ⟨_, rfl, ?_, ?_⟩
    · rw [hfm, eraseDups_snoc, if_pos hme, setRow_keys, hi.keys]
    · intro e' row hm
      rcases mem_setRow hkn hm with ⟨rfl, rfl⟩ | ⟨hne, hm⟩
      · obtain ⟨r1, r2⟩ := hi.rows _ old hmem
        refine ⟨by simp [copyCells_length, r1], fun j hj => ?_⟩
        rw [copyCells_get _ _ _ _ (by omega), hda]
        simp only [true_and]
        obtain ⟨q1, q2⟩ := r2 j hj
        constructor
        · intro h
          by_cases hl' : (j : Int) ∈ ls
          · simp [hl', hcell]
          · simp only [hl', or_false] at h
            simp [hl', q1 h]
        · intro h
          rw [not_or] at h
          simp [h.2, q2 h.1]
      · exact hother e' row hne hm

theorem labelMatrixLoop_legal {data : List (List Int)} {m : Nat} {unknown : Int} : ∀ (ixs done : List Ix)
    (acc : List (Int × List Int)), RowInv data m unknown done acc → (∀ ix ∈ ixs, Legal m ix) →
    (∀ ix ∈ ixs, ∀ e, inst ix = some e → 0 ≤ e ∧ e < data.length) →
    ∃ acc', labelMatrixLoop data m unknown acc ixs = .ok acc' ∧ RowInv data m unknown (done ++ ixs) acc'
  | [], done, acc, hi, _, _ => ⟨acc, rfl, by simpa using hi⟩
  | ix :: r, done, acc, hi, h1, h2 => by
    obtain ⟨a1, s1, i1⟩ := labelMatrixStep_legal hi (h1 ix (by simp)) (h2 ix (by simp))
    obtain ⟨a2, s2, i2⟩ := labelMatrixLoop_legal r (done ++ [ix]) a1 i1 (fun i hi => h1 i (by simp [hi]))
      (fun i hi => h2 i (by simp [hi]))
    exact ⟨a2, by simp [labelMatrixLoop, s1, s2], by simpa using i2⟩

/-- C13: for a non-empty list of legal indexes of instances of the matrix, the result has one row per distinct instance
in the order of first mention; cell `j` of the row of `e` is the data value if `(e,j)` is denoted by one of the indexes,
the unknown value otherwise. -/
theorem C13_label_matrix (data : List (List Int)) (m : Nat) (unknown : Int) (ixs : List Ix) (hne : ixs ≠ [])
    (hlegal : ∀ ix ∈ ixs, Legal m ix) (hinst : ∀ ix ∈ ixs, ∀ e, inst ix = some e → 0 ≤ e ∧ e < data.length) :
    ∃ out, getLabelMatrix (ixs.map .tup) data m unknown = .ok out ∧
      out.map Prod.fst = (ixs.filterMap inst).eraseDups ∧
      ∀ e row, (e, row) ∈ out → row.length = m ∧ ∀ j : Nat, j < m →
        (DenotesAny m ixs (e, j) → row[j]? = some (cell data e.toNat j)) ∧
        (¬ DenotesAny m ixs (e, j) → row[j]? = some unknown) := by
  obtain ⟨out, h1, h2⟩ := labelMatrixLoop_legal (data := data) (m := m) (unknown := unknown) ixs [] []
    ⟨by simp, by simp⟩ hlegal hinst
  refine ⟨out, ?_, by simpa using h2.keys, by simpa using h2.rows⟩
  have : checkIndexMultilabel (ixs.map Item.tup) = .ok ixs := (checkIndex_ok_iff _ _).2 ⟨by simpa using hne, rfl⟩
  simp [getLabelMatrix, this, h1]

theorem labelMatrixLoop_error {data : List (List Int)} {m : Nat} {unknown : Int} {bad : Ix}
    (hbad : ∀ acc, ∃ err, labelMatrixStep data m unknown acc bad = .error err) :
    ∀ (ixs : List Ix) (acc : List (Int × List Int)), bad ∈ ixs → ∃ err, labelMatrixLoop data m unknown acc ixs = .error err
  | [], _, h => by simp at h
  | ix :: r, acc, h => by
    cases hs : labelMatrixStep data m unknown acc ix with
    | error e => exact ⟨e, by simp [labelMatrixLoop, hs]⟩
    | ok a =>
      have hr : bad ∈ r := by
        rcases List.mem_cons.1 h with rfl | h
        · obtain ⟨err, he⟩ := hbad acc; rw [he] at hs; cases hs
        · exact h
      obtain ⟨err, he⟩ := labelMatrixLoop_error hbad r a hr
      exact ⟨err, by simp [labelMatrixLoop, hs, he]⟩

theorem pyRows_ok (X : List (List Int)) : ∀ es : List Int, (∀ e ∈ es, 0 ≤ e ∧ e < X.length) → ∃ rows, pyRows X es = .ok rows ∧ rows.map some = es.map (fun e => X[e.toNat]?)
  | [], _ => ⟨[], rfl, rfl⟩
  | e :: es, h => by
    obtain ⟨rows, h1, h2⟩ := pyRows_ok X es (fun x hx => h x (by simp [hx]))
    have he := h e (by simp)
    have hlt : e.toNat < X.length := by omega
    refine ⟨X[e.toNat] :: rows, ?_, ?_⟩
    · simp [pyRows, pyRow, he.1, h1, hlt]
    · simp [h2, hlt]

/-- C13 (`get_Xy_in_multilabel`): under the same conditions the feature rows, the label rows and the instances are aligned: row `k` of each belongs to the `k`-th instance, and the labels are
those of `get_labelmatrix_in_multilabel`. Features and labels of different length are refused. -/
theorem C13_Xy (X y : List (List Int)) (m : Nat) (unknown : Int) (ixs : List Ix) (hne : ixs ≠ []) (hlegal : ∀ ix ∈ ixs, Legal m ix)
    (hinst : ∀ ix ∈ ixs, ∀ e, inst ix = some e → 0 ≤ e ∧ e < y.length) :
    (X.length ≠ y.length → getXy (ixs.map .tup) X y m unknown = .error .valueError) ∧
    (X.length = y.length → ∃ Xs rows es, getXy (ixs.map .tup) X y m unknown = .ok (Xs, rows, es) ∧ es = (ixs.filterMap inst).eraseDups ∧
      Xs.map some = es.map (fun e => X[e.toNat]?) ∧ getLabelMatrix (ixs.map .tup) y m unknown = .ok (es.zip rows) ∧ rows.length = es.length) := by
  obtain ⟨out, h1, h2, h3⟩ := C13_label_matrix y m unknown ixs hne hlegal hinst
  refine ⟨fun h => by simp [getXy, h], fun h => ?_⟩
  have hr : ∀ e ∈ out.map Prod.fst, 0 ≤ e ∧ e < X.length := by
    intro e he
    rw [h2, List.mem_eraseDups, List.mem_filterMap] at he
    obtain ⟨ix, hix, hi⟩ := he
    rw [h]
    exact hinst ix hix e hi
  obtain ⟨rows, hr1, hr2⟩ := pyRows_ok X _ hr
  refine ⟨rows, out.map Prod.snd, out.map Prod.fst, by simp [getXy, h, h1, hr1], h2, hr2, ?_, by simp⟩
  rw [h1]
  congr 1
  clear h1 h2 h3 hr hr1 hr2
  induction out with
  | nil => rfl
  | cons a l ih => simp only [List.map_cons, List.zip_cons_cons, ← ih]

example : getXy [.tup (.pair 2 (.scal 1)), .tup (.all 0)] [[10], [20], [30]] [[1, 2], [3, 4], [5, 6]] 2 0 = .ok ([[30], [10]], [[0, 6], [1, 2]], [2, 0]) := by decide

/-- C13 (refusals): an index list with a scalar label out of range, an instance not below the number of rows, or a tuple
of another length is refused. Missing from the full property: *negative* instances are not refused
(`C13_negative_instance_violation`). -/
theorem C13_refuses_partial (data : List (List Int)) (m : Nat) (unknown : Int) (items : List Item) (bad : Ix)
    (hb : Item.tup bad ∈ items)
    (h : (∃ e l, bad = .pair e (.scal l) ∧ ¬ (0 ≤ l ∧ l < (m : Int))) ∨ (∃ e, inst bad = some e ∧ (data.length : Int) ≤ e) ∨
      bad = .nil ∨ ∃ e s, bad = .longer e s) :
    ∃ err, getLabelMatrix items data m unknown = .error err := by
  unfold getLabelMatrix
  cases hc : checkIndexMultilabel items with
  | error e => exact ⟨e, rfl⟩
  | ok ixs =>
    have hi := ((checkIndex_ok_iff _ _).1 hc).2
    have hbad : bad ∈ ixs := by
      rw [hi] at hb; obtain ⟨i, hi', he⟩ := List.mem_map.1 hb; cases he; exact hi'
    apply labelMatrixLoop_error (bad := bad) _ _ _ hbad
    intro acc
    rcases h with ⟨e, l, rfl, hl⟩ | ⟨e, he, hge⟩ | rfl | ⟨e, s, rfl⟩
    · by_cases hlt : e < data.length
      · exact ⟨.assertionError, by simp [labelMatrixStep, labelInd, hlt, hl]⟩
      · exact ⟨.assertionError, by simp [labelMatrixStep, hlt]⟩
    · cases bad with
      | nil => simp [inst] at he
      | longer a s => exact ⟨.valueError, by simp [labelMatrixStep]⟩
      | all a => simp only [inst, Option.some.injEq] at he; subst he; exact ⟨.assertionError, by simp [labelMatrixStep, Int.not_lt.2 hge]⟩
      | pair a s => simp only [inst, Option.some.injEq] at he; subst he; exact ⟨.assertionError, by simp [labelMatrixStep, Int.not_lt.2 hge]⟩
    · exact ⟨.valueError, by simp [labelMatrixStep]⟩
    · exact ⟨.valueError, by simp [labelMatrixStep]⟩

/-- C13, negative: instance `-1` is accepted for every non-empty matrix and silently stands for the last row. -/
theorem C13_negative_instance_violation (data : List (List Int)) (last : List Int) (m : Nat) (unknown : Int) :
    getLabelMatrix [.tup (.all (-1))] (data ++ [last]) m unknown =
      .ok [(-1, copyCells last (intRange m) (List.replicate m unknown))] := by
  simp only [getLabelMatrix, checkIndexMultilabel, allTuples, Option.map, labelMatrixLoop]
  have h1 : (-1 : Int) < ((data ++ [last]).length : Int) := by omega
  have h2 : pyRow (data ++ [last]) (-1) = some last := by simp [pyRow]
  simp only [labelMatrixStep, labelInd, storeRow, h1, h2, if_true, dictGet, List.nil_append]

example : getLabelMatrix [.tup (.pair 2 (.scal 1)), .tup (.all 0), .tup (.pair 2 (.iter false [0]))]
    [[1, 2, 3], [4, 5, 6], [7, 8, 9]] 3 (-5) = .ok [(2, [7, 8, -5]), (0, [1, 2, 3])] := by decide
example : ∀ ix ∈ [Ix.pair 2 (.scal 1), .all 0, .pair 2 (.iter false [0])], Legal (3 : Nat) ix := by simp [Legal]

end Alipy

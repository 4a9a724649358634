import Verif.Proof.MultiLabel
import Verif.Proof.IndexCollection
import Verif.Props.MultiLabelTools
import Mathlib.Tactic.Linarith
import Mathlib.Tactic.Ring

/-! # C07, C08, C10, C11, C12, C14: multi-label collections -/
namespace Alipy
open Spec
namespace MLIC

/-! ## C07 -/

/-- Every collection a program can hold: constructed, copied, and changed by any calls (whether they raise or not). -/
inductive Reachable : MLIC → Prop where
  | empty (lsz : Option Int) : Reachable (MLIC.empty lsz)
  | construct {items : List Item} {lsz : Option Int} {c : MLIC} : mk' items lsz = .ok c → Reachable c
  | copy {c : MLIC} (lsz : Option Int) : Reachable c → Reachable (c.copy lsz)
  | step {c : MLIC} (op : Op) : Reachable c → Reachable (c.step op).1

/-- A call that does not hand a *single tuple* with an iterable second component or a negative label to `add` or
`update`. Lists of any objects, any collections, and any other arguments are allowed. -/
def TameOp : Op → Prop
  | .add (.pair _ s) => ∃ l, s = .scal l ∧ 0 ≤ l
  | .update (.tuple (.pair _ s)) => ∃ l, s = .scal l ∧ 0 ≤ l
  | _ => True

/-- Collections reached by tame calls. -/
inductive TameReachable : MLIC → Prop where
  | empty (lsz : Option Int) : TameReachable (MLIC.empty lsz)
  | construct {items : List Item} {lsz : Option Int} {c : MLIC} : mk' items lsz = .ok c → TameReachable c
  | copy {c : MLIC} (lsz : Option Int) : TameReachable c → TameReachable (c.copy lsz)
  | step {c : MLIC} (op : Op) : TameOp op → TameReachable c → TameReachable (c.step op).1

theorem tame_inv {c : MLIC} (h : TameReachable c) : Inv c := by
  induction h with
  | empty lsz => exact ⟨by simp [MLIC.empty], by simp [MLIC.empty]⟩
  | construct h => exact mk'_inv h
  | copy lsz _ ih =>
    unfold MLIC.copy
    split
    · exact ⟨by simp [MLIC.empty], by simp [MLIC.empty]⟩
    · exact ⟨ih.nodup, ih.legal⟩
  | @step c op ht _ ih =>
    cases op with
    | add ix =>
      apply add_inv ih
      rintro e s rfl; exact ht
    | discard ix => exact discard_inv ih ix
    | update a =>
      cases a with
      | list items => exact updateMany_inv ih _
      | coll d => exact updateMany_inv ih _
      | tuple ix => apply add_inv ih; rintro e s rfl; exact ht
      | other => exact ih
    | differenceUpdate a =>
      cases a with
      | list items => exact differenceMany_inv ih _
      | coll d => exact differenceMany_inv ih _
      | tuple ix => exact discard_inv ih ix
      | other => exact ih
    | pop k =>
      simp only [MLIC.step, MLIC.pop]
      split
      · exact ih
      · exact ih.of_sub ⟨rfl, rfl⟩ (List.eraseIdx_sublist _ _)
    | clear => exact ih.of_sub ⟨rfl, rfl⟩ (List.nil_sublist _)

/-- C07, for all histories of tame calls (`TameOp`): the elements are plain pairs with a label in `[0, label_size)` and none is
held twice. Missing: `add`/`update` with a single tuple whose second component is negative or an iterable, where the
property is false (next two theorems). -/
theorem C07_only_legal_pairs_partial (c : MLIC) (h : TameReachable c) :
    c.inner.Nodup ∧ ∀ q ∈ c.inner, ∃ l L, q.2 = .scal l ∧ c.lsz = some L ∧ 0 ≤ l ∧ l < L :=
  ⟨(tame_inv h).nodup, (tame_inv h).legal⟩

/-- C07, negative: `add((e, l))` with any negative label is accepted by every set with a label size `L > 0`. -/
theorem C07_negative_label_violation (c : MLIC) (L : Int) (hL : c.lsz = some L) (h0 : 0 < L) (hs : c.isList = false)
    (e l : Int) (hl : l < 0) :
    (c.step (.add (.pair e (.scal l)))).2 = none ∧ (e, Second.scal l) ∈ (c.step (.add (.pair e (.scal l)))).1.inner := by
  have hlt : ¬ L ≤ l := by omega
  by_cases hm : (e, Second.scal l) ∈ c.inner
  · simp [step, add, addPair, checkBound, hL, hlt, insert, hs, hashable, hm]
  · simp [step, add, addPair, checkBound, hL, hlt, insert, hs, hashable, hm]

/-- C07, negative: `add((e, (l1, l2, ..)))` stores the compound tuple itself as an element. -/
theorem C07_compound_element_violation (c : MLIC) (L : Int) (hL : c.lsz = some L) (hs : c.isList = false)
    (e : Int) (ls : List Int) (hl : ∀ l ∈ ls, l < L) :
    (c.step (.add (.pair e (.iter true ls)))).2 = none ∧
      (e, Second.iter true ls) ∈ (c.step (.add (.pair e (.iter true ls)))).1.inner := by
  have hb : checkBound c.lsz (.iter true ls) = none := by
    cases ls with
    | nil => rfl
    | cons a r =>
      rw [hL]
      simp only [checkBound]
      rw [if_neg]
      simp only [List.any_eq_true, decide_eq_true_eq, not_exists, not_and, Int.not_le]
      exact hl
  by_cases hm : (e, Second.iter true ls) ∈ c.inner
  · simp [step, add, addPair, hb, insert, hs, hashable, hm]
  · simp [step, add, addPair, hb, insert, hs, hashable, hm]

example : TameReachable (step ⟨[(0, .scal 1), (2, .scal 0), (2, .scal 1), (2, .scal 2)], some 3, false⟩
    (.update (.list [.tup (.pair 0 (.iter false [0, 7])), .tup (.pair 1 (.scal 2))]))).1 :=
  .step _ trivial (.construct (items := [.tup (.pair 0 (.scal 1)), .tup (.all 2)]) (lsz := some 3) (by decide))

/-! ## C08 -/

/-- The index tuples an argument stands for. -/
def Stands (a : Arg) (ixs : List Ix) : Prop :=
  (a = .list (ixs.map .tup) ∧ ixs ≠ []) ∨ (∃ d : MLIC, a = .coll d ∧ ixs = d.inner.map (fun q => .pair q.1 q.2)) ∨
    ∃ ix, a = .tuple ix ∧ ixs = [ix]

theorem flattenArg_legal {c : MLIC} {L : Int} (hl : c.lsz = some L) (h0 : 0 < L) {a : Arg} {ixs : List Ix}
    (ha : (a = .list (ixs.map .tup) ∧ ixs ≠ []) ∨ ∃ d : MLIC, a = .coll d ∧ ixs = d.inner.map (fun q => .pair q.1 q.2))
    (hlegal : ∀ ix ∈ ixs, Legal L ix) :
    ∃ ps, c.flattenArg a = .ok ps ∧ ∀ p, p ∈ ps ↔ DenotesAny L ixs p := by
  obtain ⟨ps, h1, h2⟩ := flattenLoop_legal hlegal
  refine ⟨ps, ?_, h2⟩
  rcases ha with ⟨rfl, hne⟩ | ⟨d, rfl, rfl⟩
  · have : checkIndexMultilabel (ixs.map Item.tup) = .ok ixs := (checkIndex_ok_iff _ _).2 ⟨by simpa using hne, rfl⟩
    simp [flattenArg, this, hl, flatten, h0, h1]
  · simp only [flattenArg, hl, flatten, h0, if_true]
    exact h1

theorem allLabels_eq (e L : Int) : allLabels e L = ((intRange L).map (fun i => Ix.pair e (.scal i))).map .tup := by
  simp [allLabels, List.map_map, Function.comp_def]

theorem denotes_allLabels (e L : Int) (p : Int × Int) :
    DenotesAny L ((intRange L).map (fun i => Ix.pair e (.scal i))) p ↔ DenotesAny L [.all e] p := by
  obtain ⟨a, b⟩ := p
  simp only [DenotesAny, List.mem_map, List.mem_singleton, exists_eq_left, Denotes]
  constructor
  · rintro ⟨_, ⟨i, hi, rfl⟩, hd⟩
    simp only [Denotes, Prod.mk.injEq] at hd
    obtain ⟨rfl, rfl⟩ := hd
    exact ⟨rfl, (mem_intRange _ _).1 hi⟩
  · rintro ⟨rfl, h0, h1⟩
    exact ⟨_, ⟨b, (mem_intRange _ _).2 ⟨h0, h1⟩, rfl⟩, rfl⟩

theorem range_of_denotes {L : Int} {ixs : List Ix} (h : ∀ ix ∈ ixs, Legal L ix) {p : Int × Int} (hp : DenotesAny L ixs p) :
    0 ≤ p.2 ∧ p.2 < L := by
  obtain ⟨ix, hix, hd⟩ := hp
  exact legal_range (h ix hix) hd

theorem updateMany_legal {c : MLIC} {L : Int} (hl : c.lsz = some L) (h0 : 0 < L) (hs : c.isList = false) {a : Arg}
    {ixs : List Ix}
    (ha : (a = .list (ixs.map .tup) ∧ ixs ≠ []) ∨ ∃ d : MLIC, a = .coll d ∧ ixs = d.inner.map (fun q => .pair q.1 q.2))
    (hlegal : ∀ ix ∈ ixs, Legal L ix) :
    ∃ c', c.updateMany a = (c', none) ∧ Same c c' ∧
      ∀ q, q ∈ c'.inner ↔ q ∈ c.inner ∨ ∃ p, q = plain p ∧ DenotesAny L ixs p := by
  obtain ⟨ps, h1, h2⟩ := flattenArg_legal hl h0 ha hlegal
  obtain ⟨c', e, s, m⟩ := addPairs_ok ps c L hl hs (fun p hp => (range_of_denotes hlegal ((h2 p).1 hp)).2)
  refine ⟨c', by simp [updateMany, h1, e], s, fun q => ?_⟩
  rw [m]
  constructor
  · rintro (h | ⟨p, hp, rfl⟩)
    · exact .inl h
    · exact .inr ⟨p, rfl, (h2 p).1 hp⟩
  · rintro (h | ⟨p, rfl, hp⟩)
    · exact .inl h
    · exact .inr ⟨p, (h2 p).2 hp, rfl⟩

theorem differenceMany_legal {c : MLIC} {L : Int} (hl : c.lsz = some L) (h0 : 0 < L) (hs : c.isList = false) {a : Arg}
    {ixs : List Ix}
    (ha : (a = .list (ixs.map .tup) ∧ ixs ≠ []) ∨ ∃ d : MLIC, a = .coll d ∧ ixs = d.inner.map (fun q => .pair q.1 q.2))
    (hlegal : ∀ ix ∈ ixs, Legal L ix) :
    ∃ c', c.differenceMany a = (c', none) ∧ Same c c' ∧
      ∀ q, q ∈ c'.inner ↔ q ∈ c.inner ∧ ¬ ∃ p, q = plain p ∧ DenotesAny L ixs p := by
  obtain ⟨ps, h1, h2⟩ := flattenArg_legal hl h0 ha hlegal
  obtain ⟨c', e, s, m⟩ := erasePairs_ok ps c hs
  refine ⟨c', by simp [differenceMany, h1, e], s, fun q => ?_⟩
  rw [m]
  constructor
  · rintro ⟨h, hn⟩
    exact ⟨h, fun ⟨p, hq, hp⟩ => hn ⟨p, (h2 p).2 hp, hq⟩⟩
  · rintro ⟨h, hn⟩
    exact ⟨h, fun ⟨p, hp, hq⟩ => hn ⟨p, hq, (h2 p).1 hp⟩⟩

/-- C08 (union): on a collection with label size `L > 0`, `update` with legal indexes succeeds and adds exactly the denoted
pairs; everything else is untouched. Missing: a *single tuple* with an iterable second component
(`C08_tuple_with_list_violation`) and collections made by copying (`C08_copied_collection_violation`). -/
theorem C08_update_is_union_partial (c : MLIC) (L : Int) (hl : c.lsz = some L) (h0 : 0 < L) (hs : c.isList = false) (a : Arg)
    (ixs : List Ix) (ha : Stands a ixs) (hlegal : ∀ ix ∈ ixs, Legal L ix)
    (hnt : ∀ e h ls, a ≠ .tuple (.pair e (.iter h ls))) :
    ∃ c', c.update a = (c', none) ∧ c'.lsz = c.lsz ∧ c'.isList = false ∧
      ∀ q, q ∈ c'.inner ↔ q ∈ c.inner ∨ ∃ p, q = (p.1, .scal p.2) ∧ DenotesAny L ixs p := by
  rcases ha with h | h | ⟨ix, rfl, rfl⟩
  · obtain ⟨c', e, s, m⟩ := updateMany_legal hl h0 hs (.inl h) hlegal
    rw [h.1] at e ⊢
    exact ⟨c', e, s.1, s.2.trans hs, m⟩
  · obtain ⟨c', e, s, m⟩ := updateMany_legal hl h0 hs (.inr h) hlegal
    obtain ⟨d, rfl, -⟩ := h
    exact ⟨c', e, s.1, s.2.trans hs, m⟩
  · have hix := hlegal ix (by simp)
    cases ix with
    | nil => exact absurd hix (by simp [Legal])
    | longer e s => exact absurd hix (by simp [Legal])
    | all e =>
      have hne : (intRange L).map (fun i => Ix.pair e (.scal i)) ≠ [] := by
        have : (0 : Int) ∈ intRange L := (mem_intRange _ _).2 ⟨by omega, h0⟩
        intro hn; simp only [List.map_eq_nil_iff] at hn; rw [hn] at this; simp at this
      obtain ⟨c', e', s, m⟩ := updateMany_legal hl h0 hs (a := .list (allLabels e L))
        (ixs := (intRange L).map (fun i => Ix.pair e (.scal i))) (.inl ⟨by rw [allLabels_eq], hne⟩) (by
          intro i hi
          obtain ⟨j, hj, rfl⟩ := List.mem_map.1 hi
          exact (mem_intRange _ _).1 hj)
      refine ⟨c', ?_, s.1, s.2.trans hs, fun q => ?_⟩
      · simp only [update, add, hl]; exact e'
      · rw [m]; simp only [denotes_allLabels, plain]
    | pair e s =>
      cases s with
      | iter h ls => exact absurd rfl (hnt e h ls)
      | scal l =>
        obtain ⟨c', e', s, m⟩ := addPairs_ok [(e, l)] c L hl hs (by simpa using hix.2)
        refine ⟨c', ?_, s.1, s.2.trans hs, fun q => ?_⟩
        · simp only [addPairs] at e'
          simp only [update, add]
          generalize hx : c.addPair e (Second.scal l) = x at e'
          obtain ⟨x1, x2⟩ := x
          cases x2 with
          | none => simpa using e'
          | some er => simp at e'
        · rw [m]
          simp [DenotesAny, Denotes, plain]

/-- C08 (difference): `difference_update` with legal indexes removes exactly the denoted pairs. Missing as above. -/
theorem C08_difference_is_set_difference_partial (c : MLIC) (L : Int) (hl : c.lsz = some L) (h0 : 0 < L) (hs : c.isList = false)
    (a : Arg) (ixs : List Ix) (ha : Stands a ixs) (hlegal : ∀ ix ∈ ixs, Legal L ix)
    (hnt : ∀ e h ls, a ≠ .tuple (.pair e (.iter h ls))) :
    ∃ c', c.differenceUpdate a = (c', none) ∧ c'.lsz = c.lsz ∧ c'.isList = false ∧
      ∀ q, q ∈ c'.inner ↔ q ∈ c.inner ∧ ¬ ∃ p, q = (p.1, .scal p.2) ∧ DenotesAny L ixs p := by
  rcases ha with h | h | ⟨ix, rfl, rfl⟩
  · obtain ⟨c', e, s, m⟩ := differenceMany_legal hl h0 hs (.inl h) hlegal
    rw [h.1] at e ⊢
    exact ⟨c', e, s.1, s.2.trans hs, m⟩
  · obtain ⟨c', e, s, m⟩ := differenceMany_legal hl h0 hs (.inr h) hlegal
    obtain ⟨d, rfl, -⟩ := h
    exact ⟨c', e, s.1, s.2.trans hs, m⟩
  · have hix := hlegal ix (by simp)
    cases ix with
    | nil => exact absurd hix (by simp [Legal])
    | longer e s => exact absurd hix (by simp [Legal])
    | all e =>
      have hne : (intRange L).map (fun i => Ix.pair e (.scal i)) ≠ [] := by
        have : (0 : Int) ∈ intRange L := (mem_intRange _ _).2 ⟨by omega, h0⟩
        intro hn; simp only [List.map_eq_nil_iff] at hn; rw [hn] at this; simp at this
      obtain ⟨c', e', s, m⟩ := differenceMany_legal hl h0 hs (a := .list (allLabels e L))
        (ixs := (intRange L).map (fun i => Ix.pair e (.scal i))) (.inl ⟨by rw [allLabels_eq], hne⟩) (by
          intro i hi
          obtain ⟨j, hj, rfl⟩ := List.mem_map.1 hi
          exact (mem_intRange _ _).1 hj)
      refine ⟨c', ?_, s.1, s.2.trans hs, fun q => ?_⟩
      · simp only [differenceUpdate, discard, hl]; exact e'
      · rw [m]; simp only [denotes_allLabels, plain]
    | pair e s =>
      cases s with
      | iter h ls => exact absurd rfl (hnt e h ls)
      | scal l =>
        obtain ⟨c', e', s, m⟩ := erasePairs_ok [(e, l)] c hs
        refine ⟨c', ?_, s.1, s.2.trans hs, fun q => ?_⟩
        · simp only [erasePairs, plain] at e'
          simp only [differenceUpdate, discard]
          generalize hx : c.erase (e, Second.scal l) = x at e'
          obtain ⟨x1, x2⟩ := x
          cases x2 with
          | none => simpa using e'
          | some er => simp at e'
        · rw [m]
          simp [DenotesAny, Denotes, plain]

/-- C08 (constructor, label size given): a list of legal indexes gives a collection with exactly the denoted pairs, each once. -/
theorem C08_constructor (ixs : List Ix) (hne : ixs ≠ []) (L : Int) (h0 : 0 < L) (hlegal : ∀ ix ∈ ixs, Legal L ix) :
    ∃ c, mk' (ixs.map .tup) (some L) = .ok c ∧ c.lsz = some L ∧ c.isList = false ∧ c.inner.Nodup ∧
      ∀ q, q ∈ c.inner ↔ ∃ p, q = (p.1, .scal p.2) ∧ DenotesAny L ixs p := by
  obtain ⟨ps, h1, h2⟩ := flattenLoop_legal hlegal
  have hc : checkIndexMultilabel (ixs.map Item.tup) = .ok ixs := (checkIndex_ok_iff _ _).2 ⟨by simpa using hne, rfl⟩
  refine ⟨⟨setUnion [] (ps.map MLIC.plain), some L, false⟩, ?_, rfl, rfl, setUnion_nodup _ _ (by simp), fun q => ?_⟩
  · unfold mk'
    split
    · rename_i he; simp at he; exact absurd he hne
    · rw [hc]; simp only [flatten, h0, if_true, h1]
  · simp only [mem_setUnion, List.not_mem_nil, false_or, List.mem_map]
    constructor
    · rintro ⟨p, hp, rfl⟩; exact ⟨p, rfl, (h2 p).1 hp⟩
    · rintro ⟨p, rfl, hp⟩; exact ⟨p, (h2 p).2 hp, rfl⟩

theorem listMax_spec {l : List Int} (h : l ≠ []) : ∃ m, listMax l = some m ∧ m ∈ l ∧ ∀ x ∈ l, x ≤ m := by
  cases l with
  | nil => exact absurd rfl h
  | cons a l =>
    refine ⟨l.foldl max a, rfl, ?_⟩
    clear h
    induction l generalizing a with
    | nil => simp
    | cons b l ih =>
      obtain ⟨h1, h2⟩ := ih (max a b)
      simp only [List.foldl_cons]
      constructor
      · rcases List.mem_cons.1 h1 with h | h
        · rw [h]
          rcases max_choice a b with e | e <;> rw [e] <;> simp
        · simp [h]
      · intro x hx
        have hm := h2 (max a b) (by simp)
        simp only [List.mem_cons] at hx
        rcases hx with rfl | rfl | hx
        · exact le_trans (le_max_left _ _) hm
        · exact le_trans (le_max_right _ _) hm
        · exact h2 x (by simp [hx])

/-- What `infer_label_size_multilabel` computes on pairs and whole instances. -/
theorem inferLabelSize_spec {ixs : List Ix} (hs : ∀ ix ∈ ixs, (∃ e, ix = .all e) ∨ ∃ e l, ix = .pair e (.scal l))
    (hp : ∃ e l, Ix.pair e (.scal l) ∈ ixs) :
    ∃ L, inferLabelSize ixs = .ok L ∧ (∃ e, Ix.pair e (.scal (L - 1)) ∈ ixs) ∧ ∀ e l, Ix.pair e (.scal l) ∈ ixs → l < L := by
  have key : ∀ ixs : List Ix, (∀ ix ∈ ixs, (∃ e, ix = .all e) ∨ ∃ e l, ix = .pair e (.scal l)) →
      ∃ ls, allScal (seconds ixs) = some ls ∧ (∀ l, l ∈ ls ↔ ∃ e, Ix.pair e (.scal l) ∈ ixs) ∧
        ∀ s ∈ seconds ixs, ∃ l, s = .scal l := by
    intro ixs
    induction ixs with
    | nil => intro _; exact ⟨[], rfl, by simp, by simp [seconds]⟩
    | cons ix ixs ih =>
      intro h
      obtain ⟨ls, h1, h2, h3⟩ := ih (fun i hi => h i (by simp [hi]))
      rcases h ix (by simp) with ⟨e, rfl⟩ | ⟨e, l, rfl⟩
      · exact ⟨ls, h1, by simpa using h2, h3⟩
      · refine ⟨l :: ls, by simp [seconds, allScal, h1], ?_, ?_⟩
        · intro x
          simp only [List.mem_cons, h2, Ix.pair.injEq, Second.scal.injEq]
          constructor
          · rintro (rfl | ⟨e', he⟩)
            · exact ⟨e, .inl ⟨rfl, rfl⟩⟩
            · exact ⟨e', .inr he⟩
          · rintro ⟨e', ⟨-, rfl⟩ | he⟩
            · exact .inl rfl
            · exact .inr ⟨e', he⟩
        · intro s hs
          simp only [seconds, List.mem_cons] at hs
          rcases hs with rfl | hs
          · exact ⟨l, rfl⟩
          · exact h3 s hs
  obtain ⟨ls, h1, h2, h3⟩ := key ixs hs
  obtain ⟨e, l, hel⟩ := hp
  have hls : ls ≠ [] := List.ne_nil_of_mem ((h2 l).2 ⟨e, hel⟩)
  obtain ⟨m, hm, hmem, hmax⟩ := listMax_spec hls
  refine ⟨m + 1, ?_, ?_, ?_⟩
  · unfold inferLabelSize
    cases hsec : seconds ixs with
    | nil => rw [hsec] at h1; simp [allScal] at h1; exact absurd h1 (by simpa [eq_comm] using hls)
    | cons s ss =>
      obtain ⟨l', rfl⟩ := h3 s (by simp [hsec])
      rw [hsec] at h1
      simp only [h1, hm]
  · simpa using (h2 m).1 hmem
  · intro e' l' h
    have := hmax l' ((h2 l').2 ⟨e', h⟩)
    omega

/-- C08 (constructor, label size inferred): from pairs (and whole instances) the label size is the largest label plus one; with
whole instances only there is nothing to infer from and the call is refused. -/
theorem C08_constructor_infers (ixs : List Ix) (hs : ∀ ix ∈ ixs, (∃ e, ix = .all e) ∨ ∃ e l, ix = .pair e (.scal l) ∧ 0 ≤ l) :
    ((∃ e l, Ix.pair e (.scal l) ∈ ixs) → ∃ c L, mk' (ixs.map .tup) none = .ok c ∧ c.lsz = some L ∧ c.inner.Nodup ∧
      (∃ e, Ix.pair e (.scal (L - 1)) ∈ ixs) ∧ (∀ e l, Ix.pair e (.scal l) ∈ ixs → l < L) ∧
      ∀ q, q ∈ c.inner ↔ ∃ p, q = (p.1, .scal p.2) ∧ DenotesAny L ixs p) ∧
    (ixs ≠ [] → (∀ e l, Ix.pair e (.scal l) ∉ ixs) → mk' (ixs.map .tup) none = .error .genericException) := by
  have hs' : ∀ ix ∈ ixs, (∃ e, ix = .all e) ∨ ∃ e l, ix = .pair e (.scal l) := by
    intro ix hix
    rcases hs ix hix with h | ⟨e, l, h, -⟩
    · exact .inl h
    · exact .inr ⟨e, l, h⟩
  constructor
  · intro hp
    have hne : ixs ≠ [] := by obtain ⟨e, l, h⟩ := hp; exact List.ne_nil_of_mem h
    obtain ⟨L, hL, hmax, hall⟩ := inferLabelSize_spec hs' hp
    have h0 : 0 < L := by
      obtain ⟨e, he⟩ := hmax
      rcases hs _ he with ⟨e', h⟩ | ⟨e', l, h, hl⟩
      · cases h
      · simp only [Ix.pair.injEq, Second.scal.injEq] at h; omega
    have hlegal : ∀ ix ∈ ixs, Legal L ix := by
      intro ix hix
      rcases hs ix hix with ⟨e, rfl⟩ | ⟨e, l, rfl, hl⟩
      · trivial
      · exact ⟨hl, hall e l hix⟩
    obtain ⟨c, h1, h2, -, h4, h5⟩ := C08_constructor ixs hne L h0 hlegal
    refine ⟨c, L, ?_, h2, h4, hmax, hall, h5⟩
    have hc : checkIndexMultilabel (ixs.map Item.tup) = .ok ixs := (checkIndex_ok_iff _ _).2 ⟨by simpa using hne, rfl⟩
    rw [← h1]
    unfold mk'
    split
    · rename_i he; simp at he; exact absurd he hne
    · rw [hc]; simp only [hL]
  · intro hne hnone
    have hall : ∀ ix ∈ ixs, ∃ e, ix = .all e := by
      intro ix hix
      rcases hs' ix hix with h | ⟨e, l, rfl⟩
      · exact h
      · exact absurd hix (hnone e l)
    have hsec : seconds ixs = [] := by
      clear hs hs' hne hnone
      induction ixs with
      | nil => rfl
      | cons ix ixs ih =>
        obtain ⟨e, rfl⟩ := hall ix (by simp)
        exact ih (fun i hi => hall i (by simp [hi]))
    have hia : ixs.all Ix.isAll = true := by
      rw [List.all_eq_true]
      intro ix hix
      obtain ⟨e, rfl⟩ := hall ix hix
      rfl
    have hc : checkIndexMultilabel (ixs.map Item.tup) = .ok ixs := (checkIndex_ok_iff _ _).2 ⟨by simpa using hne, rfl⟩
    unfold mk'
    split
    · rename_i he; simp at he; exact absurd he hne
    · rw [hc]; simp [inferLabelSize, hsec, hia]

/-- C08: an update or difference with a *list* that raises (on a set with a known label size) has changed nothing. -/
theorem C08_failed_list_update_changes_nothing (c : MLIC) (L : Int) (hl : c.lsz = some L) (hs : c.isList = false)
    (items : List Item) (c' : MLIC) (err : PyErr) :
    (c.update (.list items) = (c', some err) → c' = c) ∧ (c.differenceUpdate (.list items) = (c', some err) → c' = c) := by
  constructor
  · intro h
    simp only [update, updateMany] at h
    split at h
    · simp only [Prod.mk.injEq] at h; exact h.1.symm
    · rename_i ps hps
      obtain ⟨c2, e, -, -⟩ := addPairs_ok ps c L hl hs (fun p hp => ((flattenArg_range hl hps).2 p hp).2)
      rw [e] at h; simp at h
  · intro h
    simp only [differenceUpdate, differenceMany] at h
    split at h
    · simp only [Prod.mk.injEq] at h; exact h.1.symm
    · rename_i ps hps
      obtain ⟨c2, e, -, -⟩ := erasePairs_ok ps c hs
      rw [e] at h; simp at h

/-- C08, negative: a single tuple `(e, (l1,..))` given to `update` adds none of the listed pairs, and given to
`difference_update` removes none of them (it only touches the compound element). -/
theorem C08_tuple_with_list_violation (c : MLIC) (e : Int) (h : Bool) (ls : List Int) (p : Int × Int) :
    (plain p ∈ (c.update (.tuple (.pair e (.iter h ls)))).1.inner ↔ plain p ∈ c.inner) ∧
    (plain p ∈ (c.differenceUpdate (.tuple (.pair e (.iter h ls)))).1.inner ↔ plain p ∈ c.inner) := by
  constructor
  · simp only [update, add, addPair]
    split
    · rfl
    · simp only [insert]
      split
      · rfl
      · split
        · rfl
        · split
          · rfl
          · simp [plain]
  · simp only [differenceUpdate, discard, erase]
    split
    · rfl
    · split
      · split
        · rfl
        · simp [plain]
      · rfl

/-- C08, negative: a collection obtained by `MultiLabelIndexCollection(other)` holds a Python list; adding any pair not
already there raises AttributeError. -/
theorem C08_copied_collection_violation (c : MLIC) (hne : c.inner ≠ []) (lsz : Option Int) (L : Int) (hl : c.lsz = some L)
    (p : Int × Int) (hp : p.2 < L) (hnew : plain p ∉ c.inner) :
    (c.copy lsz).update (.tuple (.pair p.1 (.scal p.2))) = (c.copy lsz, some .attributeError) := by
  have hc : c.copy lsz = ⟨c.inner, c.lsz, true⟩ := by simp [copy, hne]
  have hnew' : (p.1, Second.scal p.2) ∉ c.inner := hnew
  rw [hc]
  simp [update, add, addPair, checkBound, hl, Int.not_le.2 hp, insert, hnew']

example : Stands (.list [.tup (.all 1), .tup (.pair 0 (.iter false [0, 2]))]) [.all 1, .pair 0 (.iter false [0, 2])] ∧
    ∀ ix ∈ [Ix.all 1, .pair 0 (.iter false [0, 2])], Legal 3 ix := by
  refine ⟨.inl ⟨rfl, by simp⟩, by simp [Legal]⟩

/-! ## C10 -/

theorem inst_toIx (q : Int × Second) : inst (toIx q) = some q.1 := rfl

/-- C10: in a collection reached by tame calls, with label size `L > 0`: `get_unbroken_instances` lists exactly the
instances all of whose labels are held, `get_break_instances` exactly those with some but not all, each once;
`get_instance_index` lists every instance with a pair exactly once, ascending. -/
theorem C10_unbroken_and_broken_partition (c : MLIC) (hc : TameReachable c) (L : Int) (hL : c.lsz = some L) (h0 : 0 < L) :
    ∃ us bs, c.unbroken = .ok us ∧ c.broken = .ok bs ∧ us.Nodup ∧ bs.Nodup ∧
      (∀ e, e ∈ us ↔ ∀ l, 0 ≤ l → l < L → (e, Second.scal l) ∈ c.inner) ∧
      (∀ e, e ∈ bs ↔ (∃ s, (e, s) ∈ c.inner) ∧ ∃ l, 0 ≤ l ∧ l < L ∧ (e, Second.scal l) ∉ c.inner) ∧
      (∀ e, e ∈ c.instanceIndex ↔ ∃ s, (e, s) ∈ c.inner) ∧ c.instanceIndex.Nodup ∧
      c.instanceIndex.Pairwise (· ≤ ·) := by
  have hinv := tame_inv hc
  obtain ⟨ps, hps, hnd, hr⟩ := hinv.plain hL
  have hlegal : ∀ ix ∈ c.inner.map toIx, Legal L ix := by
    rw [hps]; intro ix hix
    simp only [List.mem_map] at hix
    obtain ⟨_, ⟨p, hp, rfl⟩, rfl⟩ := hix
    exact hr p hp
  have hden : ∀ e l, DenotesAny L (c.inner.map toIx) (e, l) ↔ (e, Second.scal l) ∈ c.inner := by
    intro e l
    rw [hps]
    constructor
    · rintro ⟨ix, hix, hd⟩
      simp only [List.mem_map] at hix
      obtain ⟨_, ⟨p, hp, rfl⟩, rfl⟩ := hix
      have : (e, l) = (p.1, p.2) := hd
      cases this
      exact List.mem_map.2 ⟨p, hp, rfl⟩
    · intro h
      exact ⟨toIx (e, .scal l), List.mem_map.2 ⟨_, h, rfl⟩, rfl⟩
  have hinst : ∀ e, some e ∈ (c.inner.map toIx).map inst ↔ ∃ s, (e, s) ∈ c.inner := by
    intro e
    simp only [List.map_map, List.mem_map, Function.comp]
    constructor
    · rintro ⟨⟨a, s⟩, h, he⟩
      cases he; exact ⟨s, h⟩
    · rintro ⟨s, h⟩; exact ⟨(e, s), h, rfl⟩
  obtain ⟨out, ho, hp, hnd', hin, hall⟩ := C09_integrate_keeps_the_pairs L h0 _ hlegal
  have hno : ∀ ix ∈ out, (∃ e, ix = .all e) ∨ ∃ e s, ix = .pair e s := by
    intro ix hix
    obtain ⟨d, this⟩ : ∃ d, out = integrateOut L d := by
      obtain ⟨d, hd, -, -, -⟩ := integrateLoop_legal (L := L) (c.inner.map toIx) [] ⟨by simp, by simp [dictGet], by simp [dictGet]⟩ hlegal
      have : integrate (c.inner.map toIx) (some L) = .ok (integrateOut L d) := by simp [integrate, h0, hd]
      rw [ho] at this
      exact ⟨d, Except.ok.inj this⟩
    rw [this] at hix
    simp only [integrateOut, List.mem_map] at hix
    obtain ⟨⟨e, ls⟩, -, rfl⟩ := hix
    simp only
    split
    · exact .inl ⟨e, rfl⟩
    · exact .inr ⟨e, _, rfl⟩
  refine ⟨out.filterMap allInst,
    out.filterMap pairInst, ?_, ?_, ?_, ?_, ?_, ?_, ?_, ?_, ?_⟩
  · simp only [unbroken, hL, ho]
  · simp only [broken, hL, ho]
  · have : ∀ l : List Ix, (l.map inst).Nodup → (l.filterMap allInst).Nodup := by
      intro l
      induction l with
      | nil => simp
      | cons ix l ih =>
        intro h
        rw [List.map_cons, List.nodup_cons] at h
        cases ix with
        | all e =>
          simp only [List.filterMap_cons, allInst, pairInst, List.nodup_cons]
          refine ⟨?_, ih h.2⟩
          intro hm
          obtain ⟨ix, hix, he⟩ := List.mem_filterMap.1 hm
          cases ix <;> simp [allInst, pairInst] at he
          subst he
          exact h.1 (List.mem_map.2 ⟨_, hix, rfl⟩)
        | nil => simpa [List.filterMap_cons, allInst, pairInst] using ih h.2
        | pair e s => simpa [List.filterMap_cons, allInst, pairInst] using ih h.2
        | longer e s => simpa [List.filterMap_cons, allInst, pairInst] using ih h.2
    exact this _ hnd'
  · have : ∀ l : List Ix, (l.map inst).Nodup →
        (l.filterMap pairInst).Nodup := by
      intro l
      induction l with
      | nil => simp
      | cons ix l ih =>
        intro h
        rw [List.map_cons, List.nodup_cons] at h
        cases ix with
        | pair e s =>
          simp only [List.filterMap_cons, allInst, pairInst, List.nodup_cons]
          refine ⟨?_, ih h.2⟩
          intro hm
          obtain ⟨ix, hix, he⟩ := List.mem_filterMap.1 hm
          cases ix <;> simp [allInst, pairInst] at he
          all_goals (subst he; exact h.1 (List.mem_map.2 ⟨_, hix, rfl⟩))
        | nil => simpa [List.filterMap_cons, allInst, pairInst] using ih h.2
        | all e => simpa [List.filterMap_cons, allInst, pairInst] using ih h.2
        | longer e s =>
          simp only [List.filterMap_cons, allInst, pairInst, List.nodup_cons]
          refine ⟨?_, ih h.2⟩
          intro hm
          obtain ⟨ix, hix, he⟩ := List.mem_filterMap.1 hm
          cases ix <;> simp [allInst, pairInst] at he
          all_goals (subst he; exact h.1 (List.mem_map.2 ⟨_, hix, rfl⟩))
    exact this _ hnd'
  · intro e
    have h1 : e ∈ out.filterMap allInst ↔ Ix.all e ∈ out := by
      rw [List.mem_filterMap]
      constructor
      · rintro ⟨ix, hix, he⟩
        cases ix <;> simp [allInst, pairInst] at he
        subst he; exact hix
      · intro h; exact ⟨_, h, rfl⟩
    rw [h1, hall, hinst]
    constructor
    · rintro ⟨-, h⟩ l hl0 hl1; exact (hden e l).1 (h l hl0 hl1)
    · intro h
      exact ⟨⟨_, h 0 (le_refl _) h0⟩, fun l hl0 hl1 => (hden e l).2 (h l hl0 hl1)⟩
  · intro e
    have h1 : e ∈ out.filterMap pairInst ↔
        some e ∈ out.map inst ∧ Ix.all e ∉ out := by
      rw [List.mem_filterMap]
      constructor
      · rintro ⟨ix, hix, he⟩
        have hsome : inst ix = some e := by cases ix <;> simp [allInst, pairInst] at he <;> simp [inst, he]
        refine ⟨List.mem_map.2 ⟨ix, hix, hsome⟩, ?_⟩
        intro hA
        have : ix = .all e := by
          have hinj := List.inj_on_of_nodup_map hnd' hix hA (by rw [hsome]; rfl)
          exact hinj
        subst this
        simp [pairInst] at he
      · rintro ⟨hm, hA⟩
        obtain ⟨ix, hix, he⟩ := List.mem_map.1 hm
        refine ⟨ix, hix, ?_⟩
        rcases hno ix hix with ⟨e', rfl⟩ | ⟨e', s, rfl⟩
        · simp only [inst, Option.some.injEq] at he; subst he; exact absurd hix hA
        · simpa [inst, pairInst] using he
    rw [h1, hin, hall, hinst]
    constructor
    · rintro ⟨h1, h2⟩
      refine ⟨h1, ?_⟩
      by_contra hc
      push_neg at hc
      exact h2 ⟨h1, fun l hl0 hl1 => (hden e l).2 (hc l hl0 hl1)⟩
    · rintro ⟨h1, l, hl0, hl1, hl⟩
      exact ⟨h1, fun h2 => hl ((hden e l).1 (h2.2 l hl0 hl1))⟩
  · intro e
    unfold instanceIndex
    rw [(sortBy_perm _ _).mem_iff, mem_setUnion]
    simp
  · unfold instanceIndex
    exact (sortBy_perm _ _).nodup_iff.2 (setUnion_nodup _ _ (by simp))
  · unfold instanceIndex
    have := sortBy_sorted (fun a b : Int => decide (a ≤ b)) (by simp only [decide_eq_true_eq]; omega)
      (by simp only [decide_eq_true_eq]; omega) (setUnion [] (c.inner.map Prod.fst))
    exact this.imp (fun {a b} h => by simpa using h)

/-! ## C11 -/

theorem encode_decode (o : Order) (n L : Int) (hn : 0 < n) (hL : 0 < L) (p : Int × Int) (h1 : 0 ≤ p.1 ∧ p.1 < n)
    (h2 : 0 ≤ p.2 ∧ p.2 < L) :
    decode o n L (encode o n L p) = p ∧ 0 ≤ encode o n L p ∧ encode o n L p < n * L := by
  obtain ⟨e, l⟩ := p
  cases o with
  | C =>
    simp only [encode, decode]
    refine ⟨?_, by nlinarith [h1.1, h2.1], by nlinarith [h1.2, h2.2]⟩
    have a : (e * L + l) / L = e := by
      rw [Int.add_comm, Int.add_mul_ediv_right _ _ (by omega), Int.ediv_eq_zero_of_lt h2.1 h2.2]; omega
    have b : (e * L + l) % L = l := by
      rw [Int.add_comm, Int.add_mul_emod_self_right, Int.emod_eq_of_lt h2.1 h2.2]
    rw [a, b]
  | F =>
    simp only [encode, decode]
    refine ⟨?_, by nlinarith [h1.1, h2.1], by nlinarith [h1.2, h2.2]⟩
    have a : (e + l * n) / n = l := by
      rw [Int.add_mul_ediv_right _ _ (by omega), Int.ediv_eq_zero_of_lt h1.1 h1.2]; omega
    have b : (e + l * n) % n = e := by
      rw [Int.add_mul_emod_self_right, Int.emod_eq_of_lt h1.1 h1.2]
    rw [a, b]

theorem decode_encode (o : Order) (n L : Int) (hn : 0 < n) (hL : 0 < L) (k : Int) (h0 : 0 ≤ k) (h1 : k < n * L) :
    encode o n L (decode o n L k) = k ∧ (0 ≤ (decode o n L k).1 ∧ (decode o n L k).1 < n) ∧
      (0 ≤ (decode o n L k).2 ∧ (decode o n L k).2 < L) := by
  cases o with
  | C =>
    simp only [encode, decode]
    refine ⟨by rw [Int.mul_comm]; exact Int.mul_ediv_add_emod k L, ⟨Int.ediv_nonneg h0 hL.le, ?_⟩, Int.emod_nonneg _ (by omega), Int.emod_lt_of_pos _ hL⟩
    rw [Int.ediv_lt_iff_lt_mul hL]; exact h1
  | F =>
    simp only [encode, decode]
    refine ⟨by rw [Int.mul_comm]; exact Int.emod_add_mul_ediv k n, ⟨Int.emod_nonneg _ (by omega), Int.emod_lt_of_pos _ hn⟩, Int.ediv_nonneg h0 hn.le, ?_⟩
    rw [Int.ediv_lt_iff_lt_mul hn, Int.mul_comm]; exact h1

theorem onedim_eq {c : MLIC} {ps : List (Int × Int)} (hps : c.inner = ps.map plain) {L : Int} (hL : c.lsz = some L)
    (o : Order) (n : Int) : c.onedim o (some n) = .ok (ps.map (encode o n L)) := by
  unfold onedim
  rw [hps, plainPairs_map]
  cases o with
  | F => simp [encode, Function.comp_def]
  | C => simp [hL, encode, Function.comp_def]

/-- C11: for a collection of plain pairs within an `n x L` matrix, `get_onedim_index` gives pairwise distinct numbers below
`n * L`, and `construct_by_1d_array` with the same shape and order gives a collection with the same elements. -/
theorem C11_encode_then_decode (o : Order) (n L : Int) (hn : 0 < n) (h0 : 0 < L) (c : MLIC) (hc : TameReachable c)
    (hL : c.lsz = some L) (hi : ∀ q ∈ c.inner, 0 ≤ q.1 ∧ q.1 < n) :
    ∃ ks d, c.onedim o (some n) = .ok ks ∧ ks.length = c.inner.length ∧ ks.Nodup ∧ (∀ k ∈ ks, 0 ≤ k ∧ k < n * L) ∧
      by1d ks n L o = .ok d ∧ d.lsz = some L ∧ ∀ q, q ∈ d.inner ↔ q ∈ c.inner := by
  obtain ⟨ps, hps, hnd, hr⟩ := (tame_inv hc).plain hL
  have hi' : ∀ p ∈ ps, 0 ≤ p.1 ∧ p.1 < n := by
    intro p hp
    exact hi (plain p) (by rw [hps]; exact List.mem_map.2 ⟨p, hp, rfl⟩)
  have hed : ∀ p ∈ ps, decode o n L (encode o n L p) = p := fun p hp => (encode_decode o n L hn h0 p (hi' p hp) (hr p hp)).1
  have hbound : ∀ k ∈ ps.map (encode o n L), 0 ≤ k ∧ k < n * L := by
    intro k hk
    obtain ⟨p, hp, rfl⟩ := List.mem_map.1 hk
    exact (encode_decode o n L hn h0 p (hi' p hp) (hr p hp)).2
  have hback : (ps.map (encode o n L)).map (decode o n L) = ps := by
    rw [List.map_map]
    conv_rhs => rw [← List.map_id ps]
    exact List.map_congr_left hed
  obtain ⟨d, hd, hdl, -, -, hdm⟩ := mk'_plain (ps := ps) h0 hr
  refine ⟨ps.map (encode o n L), d, onedim_eq hps hL o n, by simp [hps], ?_, hbound, ?_, hdl, ?_⟩
  · apply List.Nodup.of_map (decode o n L)
    rw [hback]; exact hnd
  · unfold by1d
    rw [if_pos (by simpa only [List.all_eq_true, decide_eq_true_eq] using hbound), hback]
    exact hd
  · intro q
    rw [hdm, hps]
    simp only [List.mem_map]
    constructor
    · rintro ⟨p, hp, rfl⟩; exact ⟨p, hp, rfl⟩
    · rintro ⟨p, hp, rfl⟩; exact ⟨p, hp, rfl⟩

/-- C11, converse: numbers below `n * L` decoded by `construct_by_1d_array` are exactly the numbers given back by
`get_onedim_index` with the same order; a number out of range is refused. -/
theorem C11_decode_then_encode (o : Order) (n L : Int) (hn : 0 < n) (h0 : 0 < L) (ks : List Int) :
    ((∀ k ∈ ks, 0 ≤ k ∧ k < n * L) → ∃ c ks', by1d ks n L o = .ok c ∧ c.onedim o (some n) = .ok ks' ∧ ks'.Nodup ∧
      ∀ k, k ∈ ks' ↔ k ∈ ks) ∧
    ((∃ k ∈ ks, ¬ (0 ≤ k ∧ k < n * L)) → by1d ks n L o = .error .valueError) := by
  constructor
  · intro hb
    have hr : ∀ p ∈ ks.map (decode o n L), 0 ≤ p.2 ∧ p.2 < L := by
      intro p hp
      obtain ⟨k, hk, rfl⟩ := List.mem_map.1 hp
      exact (decode_encode o n L hn h0 k (hb k hk).1 (hb k hk).2).2.2
    obtain ⟨c, hc, hcl, hcs, hcn, hcm⟩ := mk'_plain h0 hr
    have hinv : Inv c := mk'_inv hc
    obtain ⟨ps, hps, hnd, hr'⟩ := hinv.plain hcl
    have hmem : ∀ p, p ∈ ps ↔ p ∈ ks.map (decode o n L) := by
      intro p
      have := hcm (plain p)
      rw [hps] at this
      constructor
      · intro hp
        obtain ⟨q, hq, he⟩ := this.1 (List.mem_map.2 ⟨p, hp, rfl⟩)
        rw [plain_inj he]; exact hq
      · intro hp
        obtain ⟨q, hq, he⟩ := List.mem_map.1 (this.2 ⟨p, hp, rfl⟩)
        rw [← plain_inj he]; exact hq
    have hpi : ∀ p ∈ ps, 0 ≤ p.1 ∧ p.1 < n := by
      intro p hp
      obtain ⟨k, hk, rfl⟩ := List.mem_map.1 ((hmem p).1 hp)
      exact (decode_encode o n L hn h0 k (hb k hk).1 (hb k hk).2).2.1
    refine ⟨c, ps.map (encode o n L), ?_, onedim_eq hps hcl o n, ?_, ?_⟩
    · unfold by1d
      rw [if_pos (by simpa only [List.all_eq_true, decide_eq_true_eq] using hb)]
      exact hc
    · apply List.Nodup.of_map (decode o n L)
      rw [List.map_map]
      have : ps.map (decode o n L ∘ encode o n L) = ps := by
        conv_rhs => rw [← List.map_id ps]
        exact List.map_congr_left (fun p hp => (encode_decode o n L hn h0 p (hpi p hp) (hr' p hp)).1)
      rw [this]; exact hnd
    · intro k
      rw [List.mem_map]
      constructor
      · rintro ⟨p, hp, rfl⟩
        obtain ⟨k, hk, rfl⟩ := List.mem_map.1 ((hmem p).1 hp)
        rw [(decode_encode o n L hn h0 k (hb k hk).1 (hb k hk).2).1]; exact hk
      · intro hk
        exact ⟨decode o n L k, (hmem _).2 (List.mem_map.2 ⟨k, hk, rfl⟩), (decode_encode o n L hn h0 k (hb k hk).1 (hb k hk).2).1⟩
  · rintro ⟨k, hk, hb⟩
    unfold by1d
    rw [if_neg]
    simp only [List.all_eq_true, decide_eq_true_eq]
    intro h
    exact hb (h k hk)

/-- C11, caution: the *default* orders differ (`C` for get_onedim_index, `F` for construct_by_1d_array). Using both defaults gives the collection back exactly if its pairs have, as a set, the
same numbers row by row as column by column; for a single pair `(e, l)` this means `e (L - 1) = l (n - 1)`. -/
theorem C11_default_orders_differ (n L : Int) (hn : 0 < n) (h0 : 0 < L) (c : MLIC) (hc : TameReachable c) (hL : c.lsz = some L) (hi : ∀ q ∈ c.inner, 0 ≤ q.1 ∧ q.1 < n) :
    ∃ ks d, c.onedim .C none = .ok ks ∧ by1d ks n L .F = .ok d ∧
      ((∀ q, q ∈ d.inner ↔ q ∈ c.inner) ↔ ∀ k, (∃ e l, (e, Second.scal l) ∈ c.inner ∧ k = e * L + l) ↔ ∃ e l, (e, Second.scal l) ∈ c.inner ∧ k = e + l * n) ∧
      ∀ e l, c.inner = [(e, .scal l)] → ((∀ q, q ∈ d.inner ↔ q ∈ c.inner) ↔ e * (L - 1) = l * (n - 1)) := by
  obtain ⟨ps, hps, hnd, hr⟩ := (tame_inv hc).plain hL
  have hi' : ∀ p ∈ ps, 0 ≤ p.1 ∧ p.1 < n := fun p hp => hi (plain p) (by rw [hps]; exact List.mem_map.2 ⟨p, hp, rfl⟩)
  have hC : c.onedim .C none = .ok (ps.map (encode .C n L)) := by
    unfold onedim
    rw [hps, plainPairs_map]
    simp [hL, encode, Function.comp_def]
  have hb : ∀ k ∈ ps.map (encode .C n L), 0 ≤ k ∧ k < n * L := by
    intro k hk
    obtain ⟨p, hp, rfl⟩ := List.mem_map.1 hk
    exact (encode_decode .C n L hn h0 p (hi' p hp) (hr p hp)).2
  have hr2 : ∀ p ∈ (ps.map (encode .C n L)).map (decode .F n L), 0 ≤ p.2 ∧ p.2 < L := by
    intro p hp
    obtain ⟨k, hk, rfl⟩ := List.mem_map.1 hp
    exact (decode_encode .F n L hn h0 k (hb k hk).1 (hb k hk).2).2.2
  obtain ⟨d, hd, -, -, -, hdm⟩ := mk'_plain h0 hr2
  have hmc : ∀ e l, (e, Second.scal l) ∈ c.inner ↔ (e, l) ∈ ps := by
    intro e l
    rw [hps, List.mem_map]
    constructor
    · rintro ⟨p, hp, he⟩
      rwa [← plain_inj (q := (e, l)) he]
    · intro h; exact ⟨_, h, rfl⟩
  have key : (∀ q, q ∈ d.inner ↔ q ∈ c.inner) ↔ ∀ k, (∃ e l, (e, Second.scal l) ∈ c.inner ∧ k = e * L + l) ↔ ∃ e l, (e, Second.scal l) ∈ c.inner ∧ k = e + l * n := by
    have hE : ∀ k, (∃ e l, (e, Second.scal l) ∈ c.inner ∧ k = e * L + l) ↔ k ∈ ps.map (encode .C n L) := by
      intro k
      rw [List.mem_map]
      constructor
      · rintro ⟨e, l, h, rfl⟩; exact ⟨(e, l), (hmc e l).1 h, rfl⟩
      · rintro ⟨p, hp, rfl⟩; exact ⟨p.1, p.2, (hmc _ _).2 hp, rfl⟩
    have hF : ∀ k, (∃ e l, (e, Second.scal l) ∈ c.inner ∧ k = e + l * n) ↔ k ∈ ps.map (encode .F n L) := by
      intro k
      rw [List.mem_map]
      constructor
      · rintro ⟨e, l, h, rfl⟩; exact ⟨(e, l), (hmc e l).1 h, rfl⟩
      · rintro ⟨p, hp, rfl⟩; exact ⟨p.1, p.2, (hmc _ _).2 hp, rfl⟩
    have hD : ∀ p, plain p ∈ d.inner ↔ p ∈ (ps.map (encode .C n L)).map (decode .F n L) := by
      intro p
      rw [hdm]
      constructor
      · rintro ⟨q, hq, he⟩
        rwa [plain_inj he]
      · intro h; exact ⟨p, h, rfl⟩
    simp only [hE, hF]
    constructor
    · intro h k
      constructor
      · intro hk
        have h1 : plain (decode .F n L k) ∈ c.inner := (h _).1 ((hD _).2 (List.mem_map.2 ⟨k, hk, rfl⟩))
        rw [List.mem_map]
        refine ⟨decode .F n L k, (hmc _ _).1 h1, (decode_encode .F n L hn h0 k (hb k hk).1 (hb k hk).2).1⟩
      · intro hk
        obtain ⟨p, hp, rfl⟩ := List.mem_map.1 hk
        have h1 := (hD p).1 ((h (plain p)).2 ((hmc p.1 p.2).2 hp))
        obtain ⟨k, hk, he⟩ := List.mem_map.1 h1
        rw [← he, (decode_encode .F n L hn h0 k (hb k hk).1 (hb k hk).2).1]
        exact hk
    · intro h q
      constructor
      · intro hq
        obtain ⟨p, hp, rfl⟩ := (hdm q).1 hq
        obtain ⟨k, hk, rfl⟩ := List.mem_map.1 hp
        obtain ⟨p, hp', rfl⟩ := List.mem_map.1 ((h k).1 hk)
        rw [(encode_decode .F n L hn h0 p (hi' p hp') (hr p hp')).1]
        exact (hmc _ _).2 hp'
      · intro hq
        rw [hps] at hq
        obtain ⟨p, hp, rfl⟩ := List.mem_map.1 hq
        rw [hD, List.mem_map]
        exact ⟨encode .F n L p, (h _).2 (List.mem_map.2 ⟨p, hp, rfl⟩), (encode_decode .F n L hn h0 p (hi' p hp) (hr p hp)).1⟩
  refine ⟨_, d, hC, ?_, key, ?_⟩
  · unfold by1d
    rw [if_pos (by simpa only [List.all_eq_true, decide_eq_true_eq] using hb)]
    exact hd
  · intro e l hel
    rw [key, hel]
    simp only [List.mem_singleton, Prod.mk.injEq, Second.scal.injEq]
    constructor
    · intro h
      obtain ⟨e', l', ⟨rfl, rfl⟩, hk⟩ := (h (e * L + l)).1 ⟨e, l, ⟨rfl, rfl⟩, rfl⟩
      linarith
    · intro h k
      constructor
      · rintro ⟨e', l', ⟨rfl, rfl⟩, rfl⟩; exact ⟨e', l', ⟨rfl, rfl⟩, by linarith⟩
      · rintro ⟨e', l', ⟨rfl, rfl⟩, rfl⟩; exact ⟨e', l', ⟨rfl, rfl⟩, by linarith⟩

example : by1d [1, 4] 2 3 .F = .ok ⟨[(1, .scal 0), (0, .scal 2)], some 3, false⟩ ∧ (⟨[(1, .scal 0), (0, .scal 2)], some 3, false⟩ : MLIC).onedim .C none = .ok [3, 2] ∧
    by1d [3, 2] 2 3 .F = .ok ⟨[(1, .scal 1), (0, .scal 1)], some 3, false⟩ := by decide

end MLIC
end Alipy

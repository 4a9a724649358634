import Verif.Props.Repository
/-! # C29 for arbitrary histories of a repository with examples

Repeated indexes, equal examples, failing calls and discards of all kinds are allowed. The events are those of Props/Repository.lean, what is
stored is a pair of label and example. -/
set_option linter.unusedSectionVars false
namespace Alipy.ERepo
open Spec
variable {κ β χ : Type} [DecidableEq κ] [DecidableEq χ]

/-- The index with which an example was stored last, if it was ever stored. -/
def owner (log : List (Ev κ (β × χ))) (x : χ) : Option κ :=
  (log.reverse.findSome? (fun e => match e with
    | .set k p => if p.2 = x then some k else none
    | .del _ => none))

/-- Arbitrary histories of a repository with examples. A discard by example is logged as the discard of the index at which the repository
finds the example; `C29_discarded_owner` says which one that is. -/
inductive ExHist : ERepo κ β χ → List (Ev κ (β × χ)) → Prop
  | new {o : ERepo κ β χ} (labels : List β) (indexes : List κ) (xs : List χ) : ERepo.new labels indexes (some xs) = .ok o →
      ExHist o ((indexes.zip (labels.zip xs)).map (fun p => .set p.1 p.2))
  | add {o : ERepo κ β χ} {log : List (Ev κ (β × χ))} (k : κ) (b : β) (c : Option ℚ) (x : χ) :
      ExHist o log → ExHist (o.add k b c (some x)).1 (log ++ [.set k (b, x)])
  | addFail {o : ERepo κ β χ} {log : List (Ev κ (β × χ))} (k : κ) (b : β) (c : Option ℚ) : ExHist o log → ExHist (o.add k b c none).1 log
  | update {o o' : ERepo κ β χ} {log : List (Ev κ (β × χ))} (ks : List κ) (bs : List β) (cost : Option (Arg ℚ)) (xs : List χ) :
      ExHist o log → o.updateQuery (.many ks) (.many bs) cost (some (.many xs)) = (o', none) →
      ExHist o' (log ++ (ks.zip (bs.zip xs)).map (fun p => .set p.1 p.2))
  | updateFail {o o' : ERepo κ β χ} {log : List (Ev κ (β × χ))} {e : PyErr} (ks : Arg κ) (bs : Arg β) (cost : Option (Arg ℚ)) (xs : Option (Arg χ)) :
      ExHist o log → o.updateQuery ks bs cost xs = (o', some e) → ExHist o' log
  | discard {o : ERepo κ β χ} {log : List (Ev κ (β × χ))} (k : κ) : ExHist o log → ExHist (o.discard (some k) none).1 (log ++ [.del k])
  | discardExample {o : ERepo κ β χ} {log : List (Ev κ (β × χ))} (x : χ) :
      ExHist o log → ExHist (o.discard none (some x)).1 (log ++ ((dictGet x o.exa2ind).map Ev.del).toList)

/-- What the three dictionaries say after the events of the log. -/
structure Agrees (o : ERepo κ β χ) (log : List (Ev κ (β × χ))) : Prop where
  flag : o.hasEx = true
  listed : ∀ k b, dictGet k o.ind2label = some b → k ∈ o.indexes
  both : ∀ k, (dictGet k o.ind2label).isSome = (dictGet k o.ind2exa).isSome
  last : ∀ k b x, (dictGet k o.ind2label = some b ∧ dictGet k o.ind2exa = some x) ↔ MostRecent log Ev.key k (.set k (b, x))
  owned : ∀ x k, dictGet x o.exa2ind = some k → owner log x = some k

theorem recent_snoc {β : Type} (log : List (Ev κ β)) (e : Ev κ β) (k : κ) (b : β) : MostRecent (log ++ [e]) Ev.key k (.set k b) ↔
    (e = .set k b ∨ (e.key ≠ k ∧ MostRecent log Ev.key k (.set k b))) := by
  rw [mostRecent_iff, lastBy_snoc, mostRecent_iff]
  by_cases he : e.key = k
  · simp only [he, decide_true, if_true, ne_eq, not_true_eq_false, false_and, or_false, Option.some.injEq]
  · simp only [he, decide_false, Bool.false_eq_true, if_false, ne_eq, not_false_eq_true, true_and]
    constructor
    · exact .inr
    · rintro (rfl | h)
      · exact absurd rfl he
      · exact h

theorem owner_set (log : List (Ev κ (β × χ))) (k : κ) (b : β) (x y : χ) :
    owner (log ++ [.set k (b, x)]) y = if x = y then some k else owner log y := by
  simp only [owner, List.reverse_append, List.reverse_singleton, List.singleton_append, List.findSome?_cons]
  by_cases h : x = y <;> simp [h]

theorem owner_del (log : List (Ev κ (β × χ))) (k : κ) (y : χ) : owner (log ++ [.del k]) y = owner log y := by
  simp [owner]

theorem Agrees.set {o : ERepo κ β χ} {log : List (Ev κ (β × χ))} (h : Agrees o log) (o' : ERepo κ β χ) (k : κ) (b : β) (x : χ)
    (h1 : o'.hasEx = o.hasEx) (h2 : o'.indexes = o.indexes ++ [k]) (h3 : o'.ind2label = dictSet k b o.ind2label)
    (h4 : o'.ind2exa = dictSet k x o.ind2exa) (h5 : o'.exa2ind = dictSet x k o.exa2ind) : Agrees o' (log ++ [.set k (b, x)]) := by
  refine ⟨h1.trans h.flag, ?_, ?_, ?_, ?_⟩
  · intro k' b' hb
    rw [h3, dictGet_dictSet] at hb
    rw [h2]
    split at hb
    · simp [*]
    · simp [h.listed k' b' hb]
  · intro k'
    rw [h3, h4, dictGet_dictSet, dictGet_dictSet]
    split
    · rfl
    · exact h.both k'
  · intro k' b' x'
    rw [h3, h4, dictGet_dictSet, dictGet_dictSet, recent_snoc]
    by_cases hk : k' = k
    · subst hk; simp [Ev.key]
    · have hk' : k ≠ k' := fun h => hk h.symm
      simp only [hk, if_false, h.last, Ev.set.injEq, hk', false_and, Ev.key, ne_eq, not_false_eq_true, true_and, false_or]
  · intro y k' hy
    rw [h5, dictGet_dictSet] at hy
    rw [owner_set]
    by_cases hxy : y = x
    · subst hxy; simpa using hy
    · rw [if_neg hxy] at hy
      rw [if_neg (Ne.symm hxy)]
      exact h.owned y k' hy

/-- Removing one entry of the index list, and the entries of `k` in both dictionaries if they are there, and any entries of `exa2ind`. -/
theorem Agrees.del {o : ERepo κ β χ} {log : List (Ev κ (β × χ))} (h : Agrees o log) (o' : ERepo κ β χ) (k : κ)
    (h1 : o'.hasEx = o.hasEx) (h2 : o'.indexes = o.indexes.erase k ∨ o'.indexes = o.indexes)
    (h3 : ∀ j, dictGet j o'.ind2label = if j = k then none else dictGet j o.ind2label)
    (h4 : ∀ j, dictGet j o'.ind2exa = if j = k then none else dictGet j o.ind2exa)
    (h5 : ∀ x j, dictGet x o'.exa2ind = some j → dictGet x o.exa2ind = some j) : Agrees o' (log ++ [.del k]) := by
  refine ⟨h1.trans h.flag, ?_, ?_, ?_, ?_⟩
  · intro k' b' hb
    rw [h3] at hb
    split at hb
    · cases hb
    · rename_i hne
      rcases h2 with e | e <;> rw [e]
      · exact (List.mem_erase_of_ne hne).2 (h.listed k' b' hb)
      · exact h.listed k' b' hb
  · intro k'
    rw [h3, h4]
    split
    · rfl
    · exact h.both k'
  · intro k' b' x'
    rw [h3, h4, recent_snoc]
    by_cases hk : k' = k
    · subst hk; simp [Ev.key]
    · have hk' : k ≠ k' := fun h => hk h.symm
      simp only [hk, if_false, h.last, Ev.key, ne_eq, hk', not_false_eq_true, true_and, reduceCtorEq, false_or]
  · intro y k' hy
    rw [owner_del]
    exact h.owned y k' (h5 y k' hy)

/-- A key without label is nowhere. -/
theorem Agrees.absent {o : ERepo κ β χ} {log : List (Ev κ (β × χ))} (h : Agrees o log) {k : κ} (hk : dictGet k o.ind2label = none) :
    (∀ j, dictGet j o.ind2label = if j = k then none else dictGet j o.ind2label) ∧
    ∀ j, dictGet j o.ind2exa = if j = k then none else dictGet j o.ind2exa := by
  have hx : dictGet k o.ind2exa = none := by
    have := h.both k
    rw [hk] at this
    cases hg : dictGet k o.ind2exa with
    | none => rfl
    | some x => rw [hg] at this; cases this
  constructor
  · intro j
    split
    · subst j; exact hk
    · rfl
  · intro j
    split
    · subst j; exact hx
    · rfl

theorem Agrees.discard {o : ERepo κ β χ} {log : List (Ev κ (β × χ))} (h : Agrees o log) (k : κ) :
    Agrees (o.discard (some k) none).1 (log ++ [.del k]) := by
  show Agrees (o.discardIx k).1 _
  by_cases hk : k ∈ o.indexes
  · cases hg : dictGet k o.ind2label with
    | none =>
      have e : (o.discardIx k).1 = { o with indexes := o.indexes.erase k } := by simp [ERepo.discardIx, hk, hg]
      rw [e]
      exact h.del _ k rfl (.inl rfl) (h.absent hg).1 (h.absent hg).2 (fun _ _ hx => hx)
    | some b =>
      have hs := h.both k
      rw [hg] at hs
      obtain ⟨x, hx⟩ := Option.isSome_iff_exists.1 hs.symm
      cases hy : dictGet x o.exa2ind with
      | none =>
        have e : (o.discardIx k).1 = { o with
            indexes := o.indexes.erase k, ind2label := dictErase k o.ind2label, ind2exa := dictErase k o.ind2exa } := by
          simp [ERepo.discardIx, hk, hg, h.flag, hx, hy]
        rw [e]
        exact h.del _ k rfl (.inl rfl) (fun j => dictGet_dictErase ..) (fun j => dictGet_dictErase ..) (fun _ _ hx => hx)
      | some j =>
        have e : (o.discardIx k).1 = { o with
            indexes := o.indexes.erase k, ind2label := dictErase k o.ind2label, ind2exa := dictErase k o.ind2exa,
            exa2ind := dictErase x o.exa2ind } := by
          simp [ERepo.discardIx, hk, hg, h.flag, hx, hy]
        rw [e]
        refine h.del _ k rfl (.inl rfl) (fun j => dictGet_dictErase ..) (fun j => dictGet_dictErase ..) ?_
        intro y j' hj'
        rw [dictGet_dictErase] at hj'
        split at hj'
        · cases hj'
        · exact hj'
  · have e : (o.discardIx k).1 = o := by simp [ERepo.discardIx, hk]
    rw [e]
    have hg : dictGet k o.ind2label = none := by
      cases hg : dictGet k o.ind2label with
      | none => rfl
      | some b => exact absurd (h.listed k b hg) hk
    exact h.del _ k rfl (.inr rfl) (h.absent hg).1 (h.absent hg).2 (fun _ _ hx => hx)

theorem Agrees.discardExample {o : ERepo κ β χ} {log : List (Ev κ (β × χ))} (h : Agrees o log) (x : χ) :
    Agrees (o.discard none (some x)).1 (log ++ ((dictGet x o.exa2ind).map Ev.del).toList) := by
  show Agrees (o.discardEx x).1 _
  cases hx : dictGet x o.exa2ind with
  | none =>
    have e : (o.discardEx x).1 = o := by simp [ERepo.discardEx, h.flag, hx]
    rw [e]; simpa using h
  | some k =>
    show Agrees (o.discardEx x).1 (log ++ [.del k])
    have hsub : ∀ y j, dictGet y (dictErase x o.exa2ind) = some j → dictGet y o.exa2ind = some j := by
      intro y j hj
      rw [dictGet_dictErase] at hj
      split at hj
      · cases hj
      · exact hj
    by_cases hk : k ∈ o.indexes
    · cases hg : dictGet k o.ind2label with
      | none =>
        have hz : dictGet k o.ind2exa = none := by
          have := (h.absent hg).2 k
          simpa using this
        have e : (o.discardEx x).1 = { o with indexes := o.indexes.erase k, exa2ind := dictErase x o.exa2ind } := by
          simp [ERepo.discardEx, h.flag, hx, hk, hz]
        rw [e]
        exact h.del _ k rfl (.inl rfl) (h.absent hg).1 (h.absent hg).2 hsub
      | some b =>
        have hs := h.both k
        rw [hg] at hs
        obtain ⟨z, hz⟩ := Option.isSome_iff_exists.1 hs.symm
        have e : (o.discardEx x).1 = { o with
            indexes := o.indexes.erase k, ind2label := dictErase k o.ind2label, ind2exa := dictErase k o.ind2exa,
            exa2ind := dictErase x o.exa2ind } := by
          simp [ERepo.discardEx, hk, hg, h.flag, hx, hz]
        rw [e]
        exact h.del _ k rfl (.inl rfl) (fun j => dictGet_dictErase ..) (fun j => dictGet_dictErase ..) hsub
    · have e : (o.discardEx x).1 = o := by simp [ERepo.discardEx, h.flag, hx, hk]
      rw [e]
      have hg : dictGet k o.ind2label = none := by
        cases hg : dictGet k o.ind2label with
        | none => rfl
        | some b => exact absurd (h.listed k b hg) hk
      exact h.del _ k rfl (.inr rfl) (h.absent hg).1 (h.absent hg).2 (fun _ _ hx => hx)

theorem Agrees.addMany : ∀ (ts : List (κ × β × Option ℚ × χ)) {o : ERepo κ β χ} {log : List (Ev κ (β × χ))}, Agrees o log →
    Agrees (o.addMany (ts.map (fun t => (t.1, t.2.1, t.2.2.1, some t.2.2.2)))).1 (log ++ ts.map (fun t => .set t.1 (t.2.1, t.2.2.2))) := by
  intro ts
  induction ts with
  | nil => intro o log h; simpa [ERepo.addMany] using h
  | cons t r ih =>
    intro o log h
    obtain ⟨k, b, c, x⟩ := t
    have h' : Agrees (o.add k b c (some x)).1 (log ++ [.set k (b, x)]) := by
      have e : (o.add k b c (some x)).1 =
          ({ o with exa2ind := dictSet x k o.exa2ind, ind2exa := dictSet k x o.ind2exa }).addRest k b c := by simp [ERepo.add, h.flag]
      rw [e]
      exact h.set _ k b x rfl rfl rfl rfl rfl
    have e2 : o.add k b c (some x) = ((o.add k b c (some x)).1, none) := by simp [ERepo.add, h.flag]
    simp only [List.map_cons, ERepo.addMany]
    rw [e2]
    have := ih h'
    simpa using this

theorem repoRows_pairs : ∀ (bs : List β) (ks : List κ) (cost : Option (List ℚ)) (xs : List χ), bs.length = ks.length → xs.length = ks.length →
    ∃ ts : List (κ × β × Option ℚ × χ), repoRows bs ks cost (some xs) = ts.map (fun t => (t.1, t.2.1, t.2.2.1, some t.2.2.2)) ∧
      ts.map (fun t => (t.1, t.2.1, t.2.2.2)) = ks.zip (bs.zip xs) := by
  intro bs
  induction bs with
  | nil =>
    intro ks cost xs h1 h2
    cases ks with
    | nil => exact ⟨[], rfl, rfl⟩
    | cons k ks => cases h1
  | cons b bs ih =>
    intro ks cost xs h1 h2
    cases ks with
    | nil => cases h1
    | cons k ks =>
      cases xs with
      | nil => cases h2
      | cons x xs =>
        obtain ⟨ts, e1, e2⟩ := ih ks (cost.map List.tail) xs (by simpa using h1) (by simpa using h2)
        refine ⟨(k, b, cost.bind List.head?, x) :: ts, ?_, ?_⟩
        · simp [repoRows, e1]
        · simp [e2]

theorem ExHist.agrees {o : ERepo κ β χ} {log : List (Ev κ (β × χ))} (h : ExHist o log) : Agrees o log := by
  induction h with
  | new labels indexes xs h =>
    unfold ERepo.new at h
    split at h
    · rename_i hl
      cases h
      simp only [oneToOne, Option.map_some, List.all_cons, List.all_nil, Bool.and_true, Bool.and_eq_true, decide_eq_true_eq] at hl
      obtain ⟨l1, l2⟩ := hl
      -- build up by the loop over the pairs
      have key : ∀ ps : List (κ × β × χ), Agrees (⟨ps.map Prod.fst, true, true, dictOfList (ps.map (fun p => (p.2.2, p.1))),
          dictOfList (ps.map (fun p => (p.1, p.2.2))), dictOfList (ps.map (fun p => (p.1, p.2.1))), 0, [], 0, []⟩ : ERepo κ β χ)
          (ps.map (fun p => .set p.1 p.2)) := by
        intro ps
        induction ps using List.reverseRecOn with
        | nil =>
          refine ⟨rfl, ?_, ?_, ?_, ?_⟩ <;> simp [dictOfList, dictGet, MostRecent]
        | append_singleton l p ih =>
          have e : (l ++ [p]).map (fun p => Ev.set p.1 p.2) = l.map (fun p => Ev.set p.1 p.2) ++ [Ev.set p.1 (p.2.1, p.2.2)] := by simp
          rw [e]
          refine ih.set _ p.1 p.2.1 p.2.2 rfl ?_ ?_ ?_ ?_ <;> simp [dictOfList]
      have z1 : (indexes.zip (labels.zip xs)).map Prod.fst = indexes := by
        rw [List.map_fst_zip]; simp; omega
      have z2 : (indexes.zip (labels.zip xs)).map (fun p => (p.2.2, p.1)) = xs.zip indexes := by
        clear key z1
        induction indexes generalizing labels xs with
        | nil => simp
        | cons i is ih =>
          cases labels with
          | nil => simp at l1
          | cons b bs =>
            cases xs with
            | nil => simp at l2
            | cons x xs => simp [ih bs xs (by simpa using l1) (by simpa using l2)]
      have z3 : (indexes.zip (labels.zip xs)).map (fun p => (p.1, p.2.2)) = indexes.zip xs := by
        clear key z1 z2
        induction indexes generalizing labels xs with
        | nil => simp
        | cons i is ih =>
          cases labels with
          | nil => simp at l1
          | cons b bs =>
            cases xs with
            | nil => simp at l2
            | cons x xs => simp [ih bs xs (by simpa using l1) (by simpa using l2)]
      have z4 : (indexes.zip (labels.zip xs)).map (fun p => (p.1, p.2.1)) = indexes.zip labels := by
        clear key z1 z2 z3
        induction indexes generalizing labels xs with
        | nil => simp
        | cons i is ih =>
          cases labels with
          | nil => simp at l1
          | cons b bs =>
            cases xs with
            | nil => simp at l2
            | cons x xs => simp [ih bs xs (by simpa using l1) (by simpa using l2)]
      have := key (indexes.zip (labels.zip xs))
      rw [z1, z2, z3, z4] at this
      exact this
    · cases h
  | @add o log k b c x _ ih =>
    have e : (o.add k b c (some x)).1 =
        ({ o with exa2ind := dictSet x k o.exa2ind, ind2exa := dictSet k x o.ind2exa }).addRest k b c := by simp [ERepo.add, ih.flag]
    rw [e]
    exact ih.set _ k b x rfl rfl rfl rfl rfl
  | @addFail o log k b c _ ih =>
    have e : (o.add k b c none).1 = o := by simp [ERepo.add, ih.flag]
    rw [e]; exact ih
  | @update o o' log ks bs cost xs _ hu ih =>
    unfold ERepo.updateQuery at hu
    split at hu
    · rename_i hl
      simp only [oneToOne, List.all_cons, Option.map_some, List.all_nil, Bool.and_true, Bool.and_eq_true, Arg.len] at hl
      obtain ⟨l1, -, l2⟩ := hl
      replace l1 := of_decide_eq_true l1
      replace l2 := of_decide_eq_true l2
      obtain ⟨ts, e1, e2⟩ := repoRows_pairs bs ks (cost.map Arg.toList) xs l1.symm (l2.trans l1.symm)
      have ha := ih.addMany ts
      have e3 : ts.map (fun t => Ev.set t.1 (t.2.1, t.2.2.2)) = (ks.zip (bs.zip xs)).map (fun p => Ev.set p.1 p.2) := by
        rw [← e2, List.map_map]; rfl
      rw [e3, ← e1] at ha
      split at hu
      · cases hu
      · rename_i o1 h1
        simp only [Arg.toList, Option.map_some] at h1
        rw [h1] at ha
        cases hu
        exact ⟨ha.flag, ha.listed, ha.both, ha.last, ha.owned⟩
    · cases hu
  | updateFail ks bs cost xs _ hu ih => rw [updateQuery_fail hu]; exact ih
  | discard k _ ih => exact ih.discard k
  | discardExample x _ ih => exact ih.discardExample x

/-- C29, for arbitrary histories of a repository with examples (repeated indexes, equal examples, failing calls and all discards included):
`retrieve_by_indexes` never raises and returns for each requested index, in order, the label and the example of its last event, aligned,
skipping those never stored or discarded since. -/
theorem C29_retrieve_last {o : ERepo κ β χ} {log : List (Ev κ (β × χ))} (h : ExHist o log) (ks : Arg κ) :
    ∃ rs : List (κ × β × χ), o.retrieveByIndexes ks = .ok (rs.map (fun r => r.2.2), rs.map (fun r => r.2.1)) ∧
      rs.map Prod.fst = ks.toList.filter (fun k => o.contains k) ∧
      (∀ r ∈ rs, MostRecent log Ev.key r.1 (.set r.1 r.2)) ∧
      ∀ k ∈ ks.toList, k ∈ rs.map Prod.fst ↔ ∃ p, MostRecent log Ev.key k (.set k p) := by
  have ha := h.agrees
  have hc : ∀ k, o.contains k = true ↔ ∃ p, MostRecent log Ev.key k (.set k p) := by
    intro k
    unfold ERepo.contains
    constructor
    · intro hs
      obtain ⟨b, hb⟩ := Option.isSome_iff_exists.1 hs
      rw [ha.both] at hs
      obtain ⟨x, hx⟩ := Option.isSome_iff_exists.1 hs
      exact ⟨(b, x), (ha.last k b x).1 ⟨hb, hx⟩⟩
    · rintro ⟨⟨b, x⟩, hp⟩
      rw [((ha.last k b x).2 hp).1]; rfl
  have key : ∃ rs : List (κ × β × χ), o.retrieveByIndexes ks = .ok (rs.map (fun r => r.2.2), rs.map (fun r => r.2.1)) ∧
      rs.map Prod.fst = ks.toList.filter (fun k => o.contains k) ∧ ∀ r ∈ rs, MostRecent log Ev.key r.1 (.set r.1 r.2) := by
    show ∃ rs : List (κ × β × χ), o.retrieve ks.toList = _ ∧ _
    induction ks.toList with
    | nil => exact ⟨[], rfl, rfl, by simp⟩
    | cons k l ih =>
      obtain ⟨rs, e1, e2, e3⟩ := ih
      cases hg : dictGet k o.ind2label with
      | none =>
        have : o.contains k = false := by simp [ERepo.contains, hg]
        exact ⟨rs, by simp [ERepo.retrieve, hg, e1], by simp [this, e2], e3⟩
      | some b =>
        have hs : (dictGet k o.ind2exa).isSome = true := by rw [← ha.both, hg]; rfl
        obtain ⟨x, hx⟩ := Option.isSome_iff_exists.1 hs
        have : o.contains k = true := by simp [ERepo.contains, hg]
        refine ⟨(k, b, x) :: rs, by simp [ERepo.retrieve, hg, hx, ha.flag, e1, Except.map], by simp [this, e2], ?_⟩
        intro r hr
        rcases List.mem_cons.1 hr with rfl | hr
        · exact (ha.last k b x).1 ⟨hg, hx⟩
        · exact e3 r hr
  obtain ⟨rs, e1, e2, e3⟩ := key
  refine ⟨rs, e1, e2, e3, ?_⟩
  intro k hk
  rw [e2, List.mem_filter, hc]
  exact ⟨fun h => h.2, fun h => ⟨hk, h⟩⟩

/-- C29: a discard by example either leaves every index as it is, or discards the index with which that example was stored last. -/
theorem C29_discarded_owner {o : ERepo κ β χ} {log : List (Ev κ (β × χ))} (h : ExHist o log) (x : χ) :
    ExHist (o.discard none (some x)).1 log ∨ ∃ k, owner log x = some k ∧ ExHist (o.discard none (some x)).1 (log ++ [.del k]) := by
  have hd := ExHist.discardExample x h
  cases hx : dictGet x o.exa2ind with
  | none => rw [hx] at hd; left; simpa using hd
  | some k => rw [hx] at hd; exact .inr ⟨k, h.agrees.owned x k hx, hd⟩

/-- Two indexes with the same example; the first is stored again with another one and both are discarded, one by its example. -/
example : ∃ o : ERepo Nat String Nat,
    ExHist o [.set 1 ("a", 5), .set 2 ("b", 5), .set 1 ("c", 6), .del 2] ∧
    o.retrieveByIndexes (.many [2, 1]) = .ok ([6], ["c"]) := by
  obtain ⟨o, ho⟩ : ∃ o, ERepo.new ["a", "b"] [1, 2] (some [5, 5]) = .ok o := ⟨_, rfl⟩
  have h1 := ExHist.add 1 "c" none 6 (ExHist.new ["a", "b"] [1, 2] [5, 5] ho)
  have h2 := ExHist.discardExample 5 h1
  cases ho
  exact ⟨_, h2, rfl⟩

end Alipy.ERepo
